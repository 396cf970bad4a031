import Verif.GeoCostProofs

/-!
# Lemmas on the number of comparisons of the geobucket: what an insertion costs beyond the potential
-/

namespace Verif.Geobucket

open Verif.Tr (lift ask Costs)

variable {E M : Type} [AddCommMonoid M] {c : Conf E}

/-- The capacities grow by the factor `geoBase`. -/
def Geo (c : Conf E) (bs : List (Bucket E)) : Prop :=
  ∀ (i : ℕ) (b : Bucket E), bs[i]? = some b → b.cap = c.minBucketSize * c.geoBase ^ i

theorem Good.geo {w : E → M} {T : M} {pend : List E} {s : State E} (h : Good c w T pend s) : Geo c s.buckets := by
  intro i b hb
  exact h.data.caps.geo i b.cap (by rw [List.getElem?_map, hb]; rfl)

theorem Geo.next {bs : List (Bucket E)} (h : Geo c bs) {i : ℕ} {b d : Bucket E} (hb : bs[i]? = some b)
    (hd : bs[i + 1]? = some d) : d.cap = c.geoBase * b.cap := by
  rw [h _ _ hb, h _ _ hd, pow_succ]
  ring

theorem Geo.set {bs : List (Bucket E)} (h : Geo c bs) {i : ℕ} {b b' : Bucket E} (hb : bs[i]? = some b)
    (hc : b'.cap = b.cap) : Geo c (bs.set i b') := by
  intro j d hd
  by_cases e : i = j
  · subst e
    rw [List.getElem?_set_self (List.getElem?_eq_some_iff.1 hb).1] at hd
    cases hd
    rw [hc]; exact h _ _ hb
  · rw [List.getElem?_set_ne e] at hd
    exact h _ _ hd

/-! ## New buckets -/

/-- Empty buckets may come, nothing else changes. -/
structure Grows (c : Conf E) (s s' : State E) : Prop where
  count : s'.count = s.count
  buckets : ∃ bs, s'.buckets = s.buckets ++ bs ∧ ∀ b ∈ bs, b.es = []
  slots : Slots c s → Slots c s'
  geo : Geo c s.buckets → s.buckets ≠ [] → Geo c s'.buckets

theorem Grows.refl (s : State E) : Grows c s s := ⟨rfl, ⟨[], by simp⟩, id, fun h _ => h⟩

theorem Grows.trans {s s' s'' : State E} (h : Grows c s s') (h' : Grows c s' s'') : Grows c s s'' := by
  obtain ⟨bs, h1, h2⟩ := h.buckets
  obtain ⟨bs', h3, h4⟩ := h'.buckets
  refine ⟨h'.count.trans h.count, ⟨bs ++ bs', by rw [h3, h1, List.append_assoc], ?_⟩, fun k => h'.slots (h.slots k), ?_⟩
  · intro b hb
    rcases List.mem_append.1 hb with hb | hb
    · exact h2 b hb
    · exact h4 b hb
  · intro hg hn
    refine h'.geo (h.geo hg hn) ?_
    rw [h1]
    exact fun e => hn (List.append_eq_nil_iff.1 e).1

theorem Grows.le {s s' : State E} (h : Grows c s s') : s.buckets.length ≤ s'.buckets.length := by
  obtain ⟨bs, h1, -⟩ := h.buckets
  rw [h1, List.length_append]
  omega

theorem Grows.pot {s s' : State E} (h : Grows c s s') (K : ℕ) : pot K s'.buckets = pot K s.buckets := by
  obtain ⟨bs, h1, h2⟩ := h.buckets
  rw [h1, pot_append h2]

theorem Grows.get {s s' : State E} (h : Grows c s s') {i : ℕ} {b : Bucket E} (hb : s.buckets[i]? = some b) :
    s'.buckets[i]? = some b := by
  obtain ⟨bs, h1, -⟩ := h.buckets
  rw [h1, List.getElem?_append_left (List.getElem?_eq_some_iff.1 hb).1]
  exact hb

theorem addBucket_grows {s s' : State E} (h : addBucket c s = some s') :
    Grows c s s' ∧ s'.buckets.length = s.buckets.length + 1 := by
  unfold addBucket at h
  simp only at h
  generalize hcap : (match s.buckets.getLast? with
    | none => c.minBucketSize
    | some b => b.cap * c.geoBase) = cap at h
  have hgeo : Geo c s.buckets → s.buckets ≠ [] → Geo c (s.buckets ++ [⟨cap, [], none⟩]) := by
    intro hg hn i b hb
    rcases Nat.lt_or_ge i s.buckets.length with hi | hi
    · rw [List.getElem?_append_left hi] at hb
      exact hg i b hb
    · rw [List.getElem?_append_right hi] at hb
      have hi0 : i - s.buckets.length = 0 := by
        have := (List.getElem?_eq_some_iff.1 hb).1
        simp only [List.length_singleton] at this
        omega
      rw [hi0] at hb
      cases hb
      have hp : 0 < s.buckets.length := List.length_pos_iff.2 hn
      obtain ⟨b, hb⟩ : ∃ b, s.buckets.getLast? = some b := ⟨_, List.getLast?_eq_some_getLast hn⟩
      have hb' : s.buckets[s.buckets.length - 1]? = some b := by rw [← List.getLast?_eq_getElem?]; exact hb
      rw [hb] at hcap
      simp only at hcap ⊢
      rw [← hcap, hg _ _ hb']
      have e : i = s.buckets.length - 1 + 1 := by omega
      rw [e, pow_succ]
      ring
  subst hcap
  split at h
  · rename_i ht
    rw [Option.map_eq_some_iff] at h
    obtain ⟨f, h1, rfl⟩ := h
    have h2 := (reserveCapacity_len h1).1
    refine ⟨⟨rfl, ⟨_, rfl, by simp⟩, fun _ _ => ?_, hgeo⟩, by simp⟩
    simp only [List.length_append, List.length_singleton] at h2 ⊢
    omega
  · rename_i ht
    cases h
    exact ⟨⟨rfl, ⟨_, rfl, by simp⟩, fun _ h => absurd h ht, hgeo⟩, by simp⟩

theorem reserveLoop_grows : ∀ (n i acc : ℕ) (s s' : State E), reserveLoop c n i acc s = some s' → Grows c s s' := by
  intro n
  induction n with
  | zero => intro i acc s s' h; cases h
  | succ n ih =>
    intro i acc s s' h
    simp only [reserveLoop, Option.bind_eq_bind, Option.bind_eq_some_iff] at h
    obtain ⟨s₁, h1, b, -, h2⟩ := h
    have hg : Grows c s s₁ := by
      split at h1
      · exact (addBucket_grows h1).1
      · cases h1; exact .refl _
    split at h2
    · cases h2; exact hg
    · exact hg.trans (ih _ _ _ _ h2)

/-- What the first loop of `insert` with premerge finds. -/
theorem premergeRange_grows : ∀ (n r inc : ℕ) (s : State E) (x : ℕ × State E), premergeRange c n r inc s = some x →
    Grows c s x.2 ∧ r ≤ x.1 ∧
    (x.1 = r → ∀ b, s.buckets[r]? = some b → b.es.length + inc ≤ b.cap) ∧
    (r < x.1 → ∃ pb, s.buckets[x.1 - 1]? = some pb ∧
      pb.cap < pb.es.length + (if x.1 - 1 = r then inc else (esAt s.buckets (x.1 - 2)).length) ∧
      ∀ rb, x.2.buckets[x.1]? = some rb → rb.es ≠ [] → rb.es.length + pb.es.length ≤ rb.cap) := by
  intro n
  induction n with
  | zero => intro r inc s x h; cases h
  | succ n ih =>
    intro r inc s x h
    simp only [premergeRange, Option.bind_eq_bind, Option.bind_eq_some_iff] at h
    obtain ⟨b, hb, h⟩ := h
    split at h
    · cases h
      refine ⟨.refl _, le_rfl, fun _ b' hb' => ?_, fun hlt => absurd hlt (lt_irrefl _)⟩
      cases hb.symm.trans hb'
      assumption
    · rename_i hfit
      split at h
      · rename_i hlast
        rw [Option.map_eq_some_iff] at h
        obtain ⟨s', h1, rfl⟩ := h
        obtain ⟨hg, -⟩ := addBucket_grows h1
        refine ⟨hg, by omega, fun e => by simp at e, fun _ => ⟨b, hb, ?_, fun rb hrb hne => absurd ?_ hne⟩⟩
        · rw [if_pos (by simp)]; omega
        · obtain ⟨bs, k1, k2⟩ := hg.buckets
          rw [k1, List.getElem?_append_right (by simp only; omega)] at hrb
          exact k2 rb (List.mem_of_getElem? hrb)
      · rename_i hlast
        obtain ⟨h1, h2, h3, h4⟩ := ih _ _ _ _ h
        refine ⟨h1, by omega, fun e => by omega, fun _ => ?_⟩
        rcases Nat.lt_or_ge (r + 1) x.1 with hlt | hge
        · obtain ⟨pb, k1, k2, k3⟩ := h4 hlt
          refine ⟨pb, k1, ?_, k3⟩
          rw [if_neg (by omega)]
          by_cases e : x.1 - 1 = r + 1
          · rw [if_pos e] at k2
            have e2 : x.1 - 2 = r := by omega
            rw [e2, esAt_some hb]
            exact k2
          · rw [if_neg e] at k2
            exact k2
        · have e : x.1 = r + 1 := by omega
          refine ⟨b, by rw [e]; exact hb, ?_, fun rb hrb hne => ?_⟩
          · rw [if_pos (by omega)]; omega
          · rw [e] at hrb
            obtain ⟨d, hd⟩ : ∃ d, s.buckets[r + 1]? = some d := by
              have h5 := (List.getElem?_eq_some_iff.1 hb).1
              exact ⟨_, List.getElem?_eq_getElem (by omega)⟩
            cases (h1.get hd).symm.trans hrb
            exact h3 e _ hd

theorem growLoop_grows (adj : ℕ) : ∀ (n : ℕ) (s s' : State E), growLoop c n adj s = some s' → Grows c s s' := by
  intro n
  induction n with
  | zero => intro s s' h; cases h
  | succ n ih =>
    intro s s' h
    rw [growLoop] at h
    split at h
    · split at h
      · cases h
      · rename_i s₁ h1
        exact (addBucket_grows h1).1.trans (ih _ _ h)
    · cases h; exact .refl _

/-! ## The number of buckets -/

/-- All buckets but the last have capacities less than `Z`. -/
def Wide (c : Conf E) (Z : ℕ) (s : State E) : Prop :=
  ∀ k, s.buckets.length = k + 2 → c.minBucketSize * c.geoBase ^ k < Z

theorem Wide.same {Z : ℕ} {s s' : State E} (h : Wide c Z s) (hl : s'.buckets.length = s.buckets.length) : Wide c Z s' :=
  fun k hk => h k (hl ▸ hk)

theorem tmpCap_geo {s : State E} (hg : Geo c s.buckets) (hn : s.buckets ≠ []) :
    tmpCap s = c.minBucketSize * c.geoBase ^ (s.buckets.length - 1) := by
  have hb' : s.buckets[s.buckets.length - 1]? = some (s.buckets.getLast hn) := by
    rw [← List.getLast?_eq_getElem?]; exact List.getLast?_eq_some_getLast hn
  rw [tmpCap, List.getLast?_eq_some_getLast hn]
  exact hg _ _ hb'

theorem addBucket_wide {Z : ℕ} {s s' : State E} (hg : Geo c s.buckets) (hn : s.buckets ≠ [])
    (h : addBucket c s = some s') (hz : tmpCap s < Z) : Wide c Z s' := by
  intro k hk
  rw [(addBucket_grows h).2] at hk
  rw [tmpCap_geo hg hn] at hz
  have e : k = s.buckets.length - 1 := by omega
  rw [e]
  exact hz

theorem flat_drop {bs : List (Bucket E)} {i : ℕ} {b : Bucket E} (h : bs[i]? = some b) :
    (flat (bs.drop i)).length = b.es.length + (flat (bs.drop (i + 1))).length := by
  rw [drop_cons_of h]
  simp [flat]

theorem flat_drop_le (bs : List (Bucket E)) (i : ℕ) : (flat (bs.drop i)).length ≤ (flat bs).length := by
  conv_rhs => rw [← List.take_append_drop i bs]
  simp only [flat, List.flatMap_append, List.length_append]
  omega

theorem reserveLoop_wide {Z : ℕ} : ∀ (n i acc : ℕ) (s s' : State E) (pb : Bucket E), Geo c s.buckets →
    s.buckets[i]? = some pb → pb.cap < acc → acc + (flat (s.buckets.drop (i + 1))).length ≤ Z → Wide c Z s →
    reserveLoop c n (i + 1) acc s = some s' → Wide c Z s' := by
  intro n
  induction n with
  | zero => intro i acc s s' pb _ _ _ _ _ h; cases h
  | succ n ih =>
    intro i acc s s' pb hg hp hacc hz hw h
    simp only [reserveLoop, Option.bind_eq_bind, Option.bind_eq_some_iff] at h
    obtain ⟨s₁, h1, b, hb, h2⟩ := h
    have hil := (List.getElem?_eq_some_iff.1 hp).1
    have hn : s.buckets ≠ [] := by rintro e; rw [e] at hp; cases hp
    have key : Geo c s₁.buckets ∧ Wide c Z s₁ ∧
        b.es.length + (flat (s₁.buckets.drop (i + 1 + 1))).length ≤ (flat (s.buckets.drop (i + 1))).length := by
      split at h1
      · rename_i hlast
        obtain ⟨hgr, -⟩ := addBucket_grows h1
        refine ⟨hgr.geo hg hn, addBucket_wide hg hn h1 ?_, ?_⟩
        · have e : tmpCap s = pb.cap := by rw [tmpCap_geo hg hn, hg _ _ hp, ← hlast, Nat.add_sub_cancel]
          omega
        · obtain ⟨bs, k1, k2⟩ := hgr.buckets
          rw [← flat_drop hb, k1, List.drop_append, flat, List.flatMap_append, List.length_append]
          have e : flat (bs.drop (i + 1 - s.buckets.length)) = [] := by
            rw [flat, List.flatMap_eq_nil_iff]
            exact fun x hx => k2 x (List.mem_of_mem_drop hx)
          rw [show List.flatMap Bucket.es (bs.drop (i + 1 - s.buckets.length)) = [] from e]
          simp [flat]
      · cases h1
        exact ⟨hg, hw, (flat_drop hb).ge⟩
    obtain ⟨g1, g2, g3⟩ := key
    split at h2
    · cases h2; exact g2
    · exact ih (i + 1) _ s₁ s' b g1 hb (by omega) (by omega) g2 h2

theorem premergeRange_wide {Z : ℕ} : ∀ (n r inc : ℕ) (s : State E) (x : ℕ × State E), Geo c s.buckets →
    inc + (flat (s.buckets.drop r)).length ≤ Z → Wide c Z s → premergeRange c n r inc s = some x → Wide c Z x.2 := by
  intro n
  induction n with
  | zero => intro r inc s x _ _ _ h; cases h
  | succ n ih =>
    intro r inc s x hg hz hw h
    simp only [premergeRange, Option.bind_eq_bind, Option.bind_eq_some_iff] at h
    obtain ⟨b, hb, h⟩ := h
    have hn : s.buckets ≠ [] := by rintro e; rw [e] at hb; cases hb
    have hfd := flat_drop hb
    split at h
    · cases h; exact hw
    · split at h
      · rename_i hlast
        rw [Option.map_eq_some_iff] at h
        obtain ⟨s', h1, rfl⟩ := h
        refine addBucket_wide hg hn h1 ?_
        have e : tmpCap s = b.cap := by rw [tmpCap_geo hg hn, hg _ _ hb, ← hlast, Nat.add_sub_cancel]
        omega
      · exact ih _ _ _ _ hg (by omega) hw h

theorem growLoop_wide {Z adj : ℕ} (hz : adj ≤ Z) : ∀ (n : ℕ) (s s' : State E), Geo c s.buckets → s.buckets ≠ [] →
    Wide c Z s → growLoop c n adj s = some s' → Wide c Z s' := by
  intro n
  induction n with
  | zero => intro s s' _ _ _ h; cases h
  | succ n ih =>
    intro s s' hg hn hw h
    rw [growLoop] at h
    split at h
    · split at h
      · cases h
      · rename_i s₁ h1
        obtain ⟨hgr, hl⟩ := addBucket_grows h1
        exact ih _ _ (hgr.geo hg hn) (by rintro e; rw [e] at hl; simp at hl) (addBucket_wide hg hn h1 (by omega)) h
    · cases h; exact hw

/-! ## Insertion without premerge -/

/-- What an insertion at bucket `i` costs: the potential pays for all but `X` and the work of the front. -/
def Amortized (c : Conf E) (s : State E) (i k X : ℕ) (s' : State E) (n : ℕ) : Prop :=
  Slots c s' ∧ s'.count ≤ s.count ∧ s'.buckets.length = s.buckets.length ∧
  ∀ K, s'.buckets.length ≤ K → n + (c.geoBase + 1) * pot K s'.buckets ≤
    (c.geoBase + 1) * (pot K s.buckets + (K - i) * k) + X

/-- Both buckets are merged into an empty one. -/
theorem up_empty {K i p p' y e l base n F : ℕ} (hi : i + 1 ≤ K) (hy : y = l + e) (hn : n ≤ y + F)
    (h : p' + e ≤ p + (K - (i + 1)) * l) : n + (base + 1) * p' ≤ (base + 1) * (p + (K - i) * l) + F := by
  have h1 : p' + y ≤ p + (K - i) * l := by
    have e1 : K - i = K - (i + 1) + 1 := by omega
    rw [e1, Nat.add_mul, Nat.one_mul]
    omega
  have h2 := Nat.mul_le_mul_left (base + 1) h1
  rw [Nat.mul_add] at h2
  have h3 : y ≤ (base + 1) * y := Nat.le_mul_of_pos_left _ (Nat.succ_pos _)
  omega

/-- The merged entries go on to the next bucket. -/
theorem up_next {K i p p₁ p' y e l l' base n m F : ℕ} (hi : i + 1 ≤ K) (hy : y = l + e) (hn : n ≤ y) (hl : l' ≤ y)
    (h : p₁ + (K - i) * e ≤ p)
    (h' : m + (base + 1) * p' ≤ (base + 1) * (p₁ + (K - (i + 1)) * l') + (base * y + F)) :
    n + m + (base + 1) * p' ≤ (base + 1) * (p + (K - i) * l) + F := by
  have h1 : p₁ + (K - (i + 1)) * l' + y ≤ p + (K - i) * l := by
    have h2 := Nat.mul_le_mul_left (K - (i + 1)) hl
    have e1 : K - i = K - (i + 1) + 1 := by omega
    rw [hy, Nat.mul_add] at h2
    rw [e1, Nat.add_mul, Nat.one_mul] at h ⊢
    omega
  have h2 := Nat.mul_le_mul_left (base + 1) h1
  rw [Nat.mul_add] at h2
  have h3 : (base + 1) * y = base * y + y := by ring
  omega

theorem cascadeLoopT_costs : ∀ (n i : ℕ) (l : List E) (s : State E) (y : ℕ), Slots c s → Geo c s.buckets →
    (∀ b, s.buckets[i]? = some b → b.cap ≤ c.geoBase * y) →
    Costs (cascadeLoopT c n i l s) (Amortized c s i l.length (c.geoBase * y + (s.buckets.length - 1))) := by
  intro n
  induction n with
  | zero => intro i l s y _ _ _; exact .lift nofun
  | succ n ih =>
    intro i l s y hs hg hy
    refine .liftBind fun b hb => ?_
    have hy := hy b hb
    have hil : i < s.buckets.length := (List.getElem?_eq_some_iff.1 hb).1
    refine .ite (fun hfit => (mergeToNonEmptyT_costs hs hb).mono fun s' k _ h => ?_)
      fun hfit => .liftBind fun d hd => .ite (fun he => (mergeToEmptyT_costs hs hb hd).mono fun s' k _ h => ?_)
      fun he => .bind ((mergeToTmpT_costs hs hb).mono fun r k _ h => ?_)
    · obtain ⟨h1, h2, h3, b', h4, h5, h6⟩ := h
      refine ⟨h1, h2, by rw [h4, List.length_set], fun K hK => ?_⟩
      have h7 := pot_set_le (K := K) hb h6
      have h8 := Nat.mul_le_mul_left (c.geoBase + 1) h7
      rw [h4]
      omega
    · obtain ⟨h1, h2, h3, d', h4, h5, h6⟩ := h
      refine ⟨h1, h2, by rw [h4, List.length_set, List.length_set], fun K hK => ?_⟩
      rw [h4, List.length_set, List.length_set] at hK
      have hl2 : i + 1 < s.buckets.length := (List.getElem?_eq_some_iff.1 hd).1
      have h7 := pot_move (n := l.length) (d' := d') hb hd hK (b' := b.clear) rfl (by omega)
      rw [h4]
      refine (up_empty (by omega) rfl h3 h7).trans ?_
      omega
    · obtain ⟨h1, h2, h3, h4, h5⟩ := h
      have hl2 : i + 1 < s.buckets.length := (List.getElem?_eq_some_iff.1 hd).1
      have hg' : Geo c r.2.buckets := by rw [h4]; exact hg.set hb rfl
      have hlen : r.2.buckets.length = s.buckets.length := by rw [h4, List.length_set]
      refine (ih (i + 1) r.1 r.2 (l.length + b.es.length) h1 hg' fun b' hb' => ?_).mono fun s' m _ h' => ?_
      · rw [h4, List.getElem?_set_ne (by omega)] at hb'
        rw [hg.next hb hb']
        exact Nat.mul_le_mul_left _ (by omega)
      · obtain ⟨k1, k2, k3, k4⟩ := h'
        refine ⟨k1, k2.trans h2, by omega, fun K hK => ?_⟩
        have h6 := k4 K hK
        have h7 := pot_set (K := K) b.clear hb
        rw [hlen] at h6
        refine (up_next (p := pot K s.buckets) (F := s.buckets.length - 1) (by omega) rfl h3 h5 ?_ h6).trans ?_
        · rw [h4]
          simp only [Bucket.clear, List.length_nil, Nat.mul_zero, Nat.add_zero] at h7 ⊢
          omega
        · omega

theorem insertNoPremergeT_costs {s : State E} {i X : ℕ} {l : List E} {b : Bucket E} (hs : Slots c s)
    (hg : Geo c s.buckets) (hb : s.buckets[i]? = some b)
    (hf : b.es = [] → c.trackFront = true → s.front.fend < s.buckets.length)
    (hX : b.es.length + l.length ≤ b.cap → b.es.length + l.length ≤ X) :
    Costs (insertNoPremergeT c s i l) (fun s' n => Slots c s' ∧ s'.count ≤ s.count ∧ s.buckets.length ≤ s'.buckets.length ∧
      (∀ Z, Wide c Z s → l.length + (flat s.buckets).length ≤ Z → Wide c Z s') ∧
      ∀ K, s'.buckets.length ≤ K → n + (c.geoBase + 1) * pot K s'.buckets ≤
        (c.geoBase + 1) * (pot K s.buckets + (K - i) * l.length) + (X + (K - 1))) := by
  refine .liftBind fun b₀ h0 => ?_
  cases hb.symm.trans h0
  refine .ite (fun he => (assignNewT_costs hs hb (hf he)).mono fun s' n _ h => ?_) fun he =>
    .ite (fun hfit => (mergeToNonEmptyT_costs hs hb).mono fun s' k _ h => ?_) fun hfit => .liftBind fun s₁ hr => ?_
  · obtain ⟨h1, h2, h3, b', h4, h5, h6⟩ := h
    refine ⟨h1, h2, by rw [h4, List.length_set], fun Z hZ _ => hZ.same (by rw [h4, List.length_set]), fun K hK => ?_⟩
    have hK' : s.buckets.length ≤ K := by rw [h4, List.length_set] at hK; exact hK
    have h7 := pot_set_le (K := K) (n := l.length) (b' := b') hb (by omega)
    have h8 := Nat.mul_le_mul_left (c.geoBase + 1) h7
    rw [h4]
    omega
  · obtain ⟨h1, h2, h3, b', h4, h5, h6⟩ := h
    refine ⟨h1, h2, by rw [h4, List.length_set], fun Z hZ _ => hZ.same (by rw [h4, List.length_set]), fun K hK => ?_⟩
    have hK' : s.buckets.length ≤ K := by rw [h4, List.length_set] at hK; exact hK
    have h7 := pot_set_le (K := K) hb h6
    have h8 := Nat.mul_le_mul_left (c.geoBase + 1) h7
    have h9 := hX hfit
    rw [h4]
    omega
  · have hgr := reserveLoop_grows _ _ _ _ _ hr
    have hs1 := hgr.slots hs
    have hg1 := hgr.geo hg (by rintro e; rw [e] at hb; cases hb)
    have hb1 := hgr.get hb
    have hle := hgr.le
    have hwide : ∀ Z, Wide c Z s → l.length + (flat s.buckets).length ≤ Z → Wide c Z s₁ := by
      intro Z hZ hle
      have k1 := flat_drop hb
      have k2 := flat_drop_le s.buckets i
      exact reserveLoop_wide _ _ _ _ _ b hg hb (by omega) (by omega) hZ hr
    refine .liftBind fun d hd => .ite (fun he => (mergeToEmptyT_costs hs1 hb1 hd).mono fun s' k _ h => ?_)
      fun he => .bind ((mergeToTmpT_costs hs1 hb1).mono fun r k _ h => ?_)
    · obtain ⟨h1, h2, h3, d', h4, h5, h6⟩ := h
      have hlen : s'.buckets.length = s₁.buckets.length := by rw [h4, List.length_set, List.length_set]
      refine ⟨h1, h2.trans hgr.count.le, by omega, fun Z hZ hz => (hwide Z hZ hz).same hlen, fun K hK => ?_⟩
      have hl2 : i + 1 < s₁.buckets.length := (List.getElem?_eq_some_iff.1 hd).1
      have h7 := pot_move (n := l.length) (d' := d') hb1 hd (by omega : s₁.buckets.length ≤ K) (b' := b.clear) rfl (by omega)
      rw [h4, ← hgr.pot]
      refine (up_empty (by omega) rfl h3 h7).trans ?_
      omega
    · obtain ⟨h1, h2, h3, h4, h5⟩ := h
      have hl2 : i + 1 < s₁.buckets.length := (List.getElem?_eq_some_iff.1 hd).1
      have hg' : Geo c r.2.buckets := by rw [h4]; exact hg1.set hb1 rfl
      have hlen : r.2.buckets.length = s₁.buckets.length := by rw [h4, List.length_set]
      refine (cascadeLoopT_costs _ (i + 1) r.1 r.2 (l.length + b.es.length) h1 hg' fun b' hb' => ?_).mono
        fun s' m _ h' => ?_
      · rw [h4, List.getElem?_set_ne (by omega)] at hb'
        rw [hg1.next hb1 hb']
        exact Nat.mul_le_mul_left _ (by omega)
      · obtain ⟨k1, k2, k3, k4⟩ := h'
        refine ⟨k1, (k2.trans h2).trans hgr.count.le, by omega, fun Z hZ hz => (hwide Z hZ hz).same (by omega), fun K hK => ?_⟩
        have h6 := k4 K hK
        have h7 := pot_set (K := K) b.clear hb1
        rw [hlen] at h6
        rw [← hgr.pot]
        refine (up_next (p := pot K s₁.buckets) (F := s₁.buckets.length - 1) (by omega) rfl h3 h5 ?_ h6).trans ?_
        · rw [h4]
          simp only [Bucket.clear, List.length_nil, Nat.mul_zero, Nat.add_zero] at h7 ⊢
          omega
        · omega

/-! ## Insertion with premerge -/

theorem moveToEmpty_len {s s' : State E} {r : ℕ} {sb : Bucket E} (hs : Slots c s) (hr : 1 ≤ r)
    (hb : s.buckets[r - 1]? = some sb) (h : moveToEmpty c s r (r - 1) = some s') :
    Slots c s' ∧ s'.count = s.count ∧ s'.buckets.length = s.buckets.length ∧
    ∀ K, s.buckets.length ≤ K → pot K s'.buckets + sb.es.length ≤ pot K s.buckets := by
  simp only [moveToEmpty, Option.bind_eq_bind, Option.bind_eq_some_iff] at h
  obtain ⟨fb, h0, db, hd, db', hf, h1⟩ := h
  cases hb.symm.trans h0
  have hst := swapKeys_still h1
  have e : s'.buckets = (s.buckets.set r db').set (r - 1) sb.clear := hst.buckets
  have hs' : Slots c ((s.setBucket r db').setBucket (r - 1) sb.clear) := fun ht => by
    show _ ≤ ((s.buckets.set r db').set (r - 1) sb.clear).length
    rw [List.length_set, List.length_set]; exact hs ht
  refine ⟨hst.ok hs', hst.count, by rw [e, List.length_set, List.length_set], fun K hK => ?_⟩
  obtain ⟨i, rfl⟩ : ∃ i, r = i + 1 := ⟨r - 1, by omega⟩
  rw [Nat.add_sub_cancel] at *
  have h7 := pot_move (n := 0) (d' := db') hb hd hK (b' := sb.clear) rfl (by rw [(fill_len hf).1]; omega)
  rw [e]
  omega

theorem moveLoop_len : ∀ (n r : ℕ) (s s' : State E), Slots c s → n ≤ r → r < s.buckets.length →
    moveLoop c n r s = some s' → Slots c s' ∧ s'.count = s.count ∧ s'.buckets.length = s.buckets.length ∧
    ∀ K, s.buckets.length ≤ K →
      pot K s'.buckets + (if n = 0 then 0 else (esAt s.buckets (r - 1)).length) ≤ pot K s.buckets := by
  intro n
  induction n with
  | zero => intro r s s' hs _ _ h; cases h; exact ⟨hs, rfl, rfl, fun K _ => by rw [if_pos rfl]; omega⟩
  | succ n ih =>
    intro r s s' hs hn hr h
    simp only [moveLoop, Option.bind_eq_bind, Option.bind_eq_some_iff] at h
    obtain ⟨s₁, h1, h2⟩ := h
    obtain ⟨sb, hb, he⟩ := esAt_exists (bs := s.buckets) (i := r - 1) (by omega)
    obtain ⟨k1, k2, k3, k4⟩ := moveToEmpty_len hs (by omega) hb h1
    obtain ⟨m1, m2, m3, m4⟩ := ih (r - 1) s₁ s' k1 (by omega) (by omega) h2
    refine ⟨m1, m2.trans k2, m3.trans k3, fun K hK => ?_⟩
    have h3 := k4 K hK
    have h4 := m4 K (by omega)
    rw [if_neg (Nat.succ_ne_zero n), he]
    omega

theorem premergesT_costs {s : State E} {i r k : ℕ} {rb pb : Bucket E} (hs : Slots c s) (hg : Geo c s.buckets)
    (hir : i < r) (hr : s.buckets[r]? = some rb) (hp : s.buckets[r - 1]? = some pb)
    (hfull : pb.cap < pb.es.length + (if r - 1 = i then k else (esAt s.buckets (r - 2)).length))
    (hfit : rb.es ≠ [] → rb.es.length + pb.es.length ≤ rb.cap) :
    Costs (premergesT c s i r) (fun s' n => Slots c s' ∧ s'.count ≤ s.count ∧ s'.buckets.length = s.buckets.length ∧
      ∀ K, s.buckets.length ≤ K → n + (c.geoBase + 1) * pot K s'.buckets ≤
        (c.geoBase + 1) * pot K s.buckets + c.geoBase * k + (K - 1)) := by
  have hrl : r < s.buckets.length := (List.getElem?_eq_some_iff.1 hr).1
  refine .ite (fun _ => .liftBind fun rb₀ h0 => ?_) fun h => absurd hir.ne h
  cases hr.symm.trans h0
  refine .ite (fun hne => .bind ((mergeBucketsT_costs hs (by omega) hp hr).mono fun s₁ n _ h => .lift fun s' h1 => ?_))
    fun he => .lift fun s' h1 => ?_
  · obtain ⟨k1, k2, k3, db', k4, k5, k6⟩ := h
    have hlen : s₁.buckets.length = s.buckets.length := by rw [k4, List.length_set, List.length_set]
    obtain ⟨m1, m2, m3, m4⟩ := moveLoop_len _ _ _ _ k1 (by omega) (by omega) h1
    refine ⟨m1, m2.le.trans k2, by omega, fun K hK => ?_⟩
    have h2 := m4 K (by omega)
    obtain ⟨j, rfl⟩ : ∃ j, r = j + 1 := ⟨r - 1, by omega⟩
    rw [Nat.add_sub_cancel] at *
    have h3 := pot_move (n := 0) (d' := db') hp hr hK (b' := pb.clear) rfl (by omega)
    have hcap := hg.next hp hr
    have h4 := hfit hne
    have e2 : j + 1 - 2 = j - 1 := by omega
    rw [e2] at hfull
    rw [k4] at h2
    have h5 : c.geoBase * (pb.cap) ≤ c.geoBase * (pb.es.length + (if j = i then k else (esAt s.buckets (j - 1)).length)) :=
      Nat.mul_le_mul_left _ hfull.le
    by_cases e : j = i
    · rw [if_pos e] at h5
      have h6 : pot K s'.buckets + pb.es.length ≤ pot K s.buckets := by omega
      have h7 := Nat.mul_le_mul_left (c.geoBase + 1) h6
      have h8 : (c.geoBase + 1) * pb.es.length = c.geoBase * pb.es.length + pb.es.length := by ring
      rw [Nat.mul_add] at h5 h7
      omega
    · rw [if_neg e] at h5
      have he : esAt ((s.buckets.set (j + 1) db').set j pb.clear) (j - 1) = esAt s.buckets (j - 1) := by
        rw [esAt_set (by rw [List.length_set]; omega), if_neg (by omega), esAt_set (by omega), if_neg (by omega)]
      rw [if_neg (by omega), he] at h2
      have h6 : pot K s'.buckets + (pb.es.length + (esAt s.buckets (j - 1)).length) ≤ pot K s.buckets := by omega
      have h7 := Nat.mul_le_mul_left (c.geoBase + 1) h6
      generalize pb.es.length + (esAt s.buckets (j - 1)).length = z at h5 h7
      have h8 : (c.geoBase + 1) * z = c.geoBase * z + z := by ring
      rw [Nat.mul_add] at h7
      omega
  · obtain ⟨m1, m2, m3, m4⟩ := moveLoop_len _ _ _ _ hs (by omega) hrl h1
    refine ⟨m1, m2.le, m3, fun K hK => ?_⟩
    have h2 := Nat.mul_le_mul_left (c.geoBase + 1) ((Nat.le_add_right _ _).trans (m4 K hK))
    omega

theorem fend_lt {w : E → M} {T : M} {pend : List E} {s : State E} (h : Good c w T pend s) {i : ℕ}
    (hi : i < s.buckets.length) (he : esAt s.buckets i = []) (ht : c.trackFront = true) :
    s.front.fend < s.buckets.length := by
  obtain ⟨live, hf⟩ := h.front ht
  rw [hf.link.fend]
  have hn : i ∉ live := fun hm => (hf.mem i).1 hm he
  have h1 : (i :: live).length ≤ s.buckets.length := by
    refine length_le_of_nodup (List.nodup_cons.2 ⟨hn, hf.link.nodup⟩) fun x hx => ?_
    rcases List.mem_cons.1 hx with rfl | hx
    · exact hi
    · rw [← hf.len]; exact hf.link.mem_lt hx
  exact h1

theorem insertPremergeT_costs (hsa : Sane c) (hc : c.Lawful) {w : E → M} (hw : c.Weight w) {T : M} {s : State E}
    {i X : ℕ} {l : List E} {b : Bucket E}
    (h : Good c w T l s) (hs : Slots c s) (hb : s.buckets[i]? = some b) (hfit : l.length ≤ b.cap)
    (hX : b.es.length + l.length ≤ b.cap → b.es.length + l.length ≤ X) :
    Costs (insertPremergeT c s i l) (fun s' n => Slots c s' ∧ s'.count ≤ s.count ∧ s.buckets.length ≤ s'.buckets.length ∧
      (∀ Z, Wide c Z s → l.length + (flat s.buckets).length ≤ Z → Wide c Z s') ∧
      ∀ K, s'.buckets.length ≤ K → n + (c.geoBase + 1) * pot K s'.buckets ≤
        (c.geoBase + 1) * (pot K s.buckets + (K - i) * l.length) + (c.geoBase * l.length + X + 2 * (K - 1))) := by
  have hil : i < s.buckets.length := (List.getElem?_eq_some_iff.1 hb).1
  obtain ⟨r', s₁', rb, hpr, hgood, hgrown, hle, hrb, hne, -, hroom⟩ :=
    premergeRange_ok hsa (s.buckets.length + 1) i l.length s b h hb hfit (by omega)
  refine .liftBind fun r hr => ?_
  rw [hpr] at hr
  cases hr
  obtain ⟨g1, -, g3, g4⟩ := premergeRange_grows _ _ _ _ _ hpr
  simp only at g1 g3 g4
  have hs1 := g1.slots hs
  have hg1 := hgood.geo
  have hgle := g1.le
  have hwide : ∀ Z, Wide c Z s → l.length + (flat s.buckets).length ≤ Z → Wide c Z s₁' := by
    intro Z hZ hle
    have k2 := flat_drop_le s.buckets i
    exact premergeRange_wide _ _ _ _ _ h.geo (by omega) hZ hpr
  have hb1 := g1.get hb
  rcases Nat.lt_or_ge i r' with hlt | hge
  · obtain ⟨pb, p1, p2, p3⟩ := g4 hlt
    have hes : ∀ j, esAt s₁'.buckets j = esAt s.buckets j := fun j => hgrown.esAt j
    obtain ⟨s₂', q1, q2, q3, q4⟩ := premerges_ok hc hw hgood hlt hrb
      (fun j h1 h2 => by rw [hes]; exact hne j h1 h2) (by rw [hes]; exact hroom hlt)
    refine .bind ((premergesT_costs hs1 hg1 hlt hrb (g1.get p1) (by rw [hes]; exact p2) (p3 rb hrb)).mono
      fun s₂ n h2 hcost => ?_)
    rw [← premerges_sim c c.lt c.eq s₁' i r' fun _ _ => ⟨rfl, rfl⟩] at h2
    cases (q1.symm.trans h2)
    obtain ⟨k1, k2, k3, k4⟩ := hcost
    obtain ⟨b₂, hb₂, he₂⟩ := esAt_exists (bs := s₂'.buckets) (i := i) (by omega)
    rw [q4] at he₂
    refine .liftBind fun b₃ hb₃ => ?_
    cases hb₂.symm.trans hb₃
    refine .ite (fun _ => (assignNewT_costs k1 hb₂ (fend_lt q2 (by omega) q4)).mono fun s' m _ h => ?_)
      fun hn => absurd he₂.symm hn
    obtain ⟨h1, h2, h3, b', h4, h5, h6⟩ := h
    have hlen : s'.buckets.length = s₂'.buckets.length := by rw [h4, List.length_set]
    refine ⟨h1, (h2.trans k2).trans g1.count.le, by omega, fun Z hZ hz => (hwide Z hZ hz).same (by omega), fun K hK => ?_⟩
    have h7 := pot_set_le (K := K) (n := l.length) hb₂ (b' := b') (by omega)
    have h8 := Nat.mul_le_mul_left (c.geoBase + 1) h7
    have h9 := k4 K (by omega)
    rw [g1.pot] at h9
    rw [h4]
    simp only [Nat.mul_add] at h8 ⊢
    omega
  · have e : r' = i := by omega
    subst e
    refine .bind (Costs.mono (P := fun s₂ n => s₂ = s₁' ∧ n = 0) ?_ fun s₂ n _ hh => ?_)
    · show Costs (if r' ≠ r' then _ else _) _
      rw [if_neg (by simp)]
      exact .lift fun a ha => by cases ha; exact ⟨rfl, rfl⟩
    obtain ⟨rfl, rfl⟩ := hh
    refine .liftBind fun b₁ hb₁ => ?_
    cases hb1.symm.trans hb₁
    have hX' := hX (g3 rfl b hb)
    refine .ite (fun he => (assignNewT_costs hs1 hb1 (fend_lt hgood (i := r') (by omega) (by rw [esAt_some hb1]; exact he))).mono
      fun s' m _ h => ?_) fun he => (mergeToNonEmptyT_costs hs1 hb1).mono fun s' m _ h => ?_
    · obtain ⟨h1, h2, h3, b', h4, h5, h6⟩ := h
      have hlen : s'.buckets.length = s₂.buckets.length := by rw [h4, List.length_set]
      refine ⟨h1, h2.trans g1.count.le, by omega, fun Z hZ hz => (hwide Z hZ hz).same (by omega), fun K hK => ?_⟩
      have h7 := pot_set_le (K := K) (n := l.length) hb1 (b' := b') (by omega)
      have h8 := Nat.mul_le_mul_left (c.geoBase + 1) h7
      rw [g1.pot] at h8
      rw [h4]
      omega
    · obtain ⟨h1, h2, h3, b', h4, h5, h6⟩ := h
      have hlen : s'.buckets.length = s₂.buckets.length := by rw [h4, List.length_set]
      refine ⟨h1, h2.trans g1.count.le, by omega, fun Z hZ hz => (hwide Z hZ hz).same (by omega), fun K hK => ?_⟩
      have h7 := pot_set_le (K := K) (n := l.length) hb1 (b' := b') (by omega)
      have h8 := Nat.mul_le_mul_left (c.geoBase + 1) h7
      rw [g1.pot] at h8
      rw [h4]
      omega

theorem insertT_costs (hsa : Sane c) (hc : c.Lawful) {w : E → M} (hw : c.Weight w) {T : M} {s : State E}
    {i X : ℕ} {l : List E} {b : Bucket E}
    (h : Good c w T l s) (hs : Slots c s) (hb : s.buckets[i]? = some b) (hfit : l.length ≤ b.cap)
    (hX : b.es.length + l.length ≤ b.cap → b.es.length + l.length ≤ X) :
    Costs (insertT c s i l) (fun s' n => Slots c s' ∧ s'.count ≤ s.count ∧ s.buckets.length ≤ s'.buckets.length ∧
      (∀ Z, Wide c Z s → l.length + (flat s.buckets).length ≤ Z → Wide c Z s') ∧
      ∀ K, s'.buckets.length ≤ K → n + (c.geoBase + 1) * pot K s'.buckets ≤
        (c.geoBase + 1) * (pot K s.buckets + (K - i) * l.length) + (c.geoBase * l.length + X + 2 * (K - 1))) := by
  have hil : i < s.buckets.length := (List.getElem?_eq_some_iff.1 hb).1
  refine .ite (fun _ => insertPremergeT_costs hsa hc hw h hs hb hfit hX) fun _ =>
    (insertNoPremergeT_costs hs h.geo hb (fun he ht => fend_lt h hil (by rw [esAt_some hb]; exact he) ht) hX).mono
      fun s' n _ h' => ?_
  obtain ⟨h1, h2, h3, h5, h4⟩ := h'
  exact ⟨h1, h2, h3, h5, fun K hK => (h4 K hK).trans (by omega)⟩

end Verif.Geobucket
