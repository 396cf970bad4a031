import Verif.GeoPopProofs

/-!
# Helper lemmas about merging and moving the buckets of a `Geobucket`
-/

namespace Verif.Geobucket

variable {E M : Type} [AddCommMonoid M] {c : Conf E}

/-- The buckets and the front are in order, with `pend` in transit. -/
structure Good (c : Conf E) (w : E → M) (T : M) (pend : List E) (s : State E) : Prop where
  data : Data c w s.buckets s.count pend T
  front : FrontOk c s.buckets s.front

/-- No maximal bucket is noted. -/
def Uncached (c : Conf E) (s : State E) : Prop := c.trackFront = false → s.front.cached = none

/-- The same buckets with the same capacities. -/
def SameCaps (s s' : State E) : Prop := s'.buckets.map Bucket.cap = s.buckets.map Bucket.cap

theorem SameCaps.length {s s' : State E} (h : SameCaps s s') : s'.buckets.length = s.buckets.length := by
  have := congrArg List.length h
  simpa using this

theorem SameCaps.cap {s s' : State E} (h : SameCaps s s') {i : ℕ} {b : Bucket E}
    (hb : s.buckets[i]? = some b) : ∃ b', s'.buckets[i]? = some b' ∧ b'.cap = b.cap := by
  have hl := (List.getElem?_eq_some_iff.mp hb).1
  obtain ⟨b', hb'⟩ : ∃ b', s'.buckets[i]? = some b' :=
    ⟨_, List.getElem?_eq_getElem (by rw [h.length]; exact hl)⟩
  refine ⟨b', hb', ?_⟩
  have := congrArg (fun l => l[i]?) h
  simpa [hb, hb'] using this

/-- What is held by bucket `i` is counted. -/
theorem esAt_le_flat {bs : List (Bucket E)} {i : ℕ} {b : Bucket E} (h : bs[i]? = some b) :
    b.es.length ≤ (flat bs).length := by
  have h1 := flat_set_length h b.clear
  have h2 : b.clear.es.length = 0 := rfl
  omega

theorem ge_of_same (hc : StrictWeak c.lt) {l l' : List E} {x y z : E} (ha : Asc c l')
    (hs : ∀ x, x ∈ l → ∃ y ∈ l', Same c y x) (hx : l.getLast? = some x) (hy : l'.getLast? = some y)
    (h : c.lt x z = false) : c.lt y z = false := by
  obtain ⟨u, hu, hsu⟩ := hs x (List.mem_of_getLast? hx)
  have := ha.le_last hc hy u hu
  rw [(hsu _).2] at this
  exact hc.ge_trans this h

theorem ne_of_same {l l' : List E} (hs : ∀ x, x ∈ l → ∃ y ∈ l', Same c y x) (h : l ≠ []) : l' ≠ [] := by
  obtain ⟨x, hx⟩ := List.exists_mem_of_ne_nil _ h
  obtain ⟨y, hy, _⟩ := hs x hx
  exact List.ne_nil_of_mem hy

/-- `mergeToNonEmpty` up to the change of the front. -/
theorem mergeToNonEmpty_eq (hc : c.Lawful) {w : E → M} (hw : c.Weight w) {s : State E} {n : ℕ} {T : M}
    {pend l : List E} {into : ℕ} {b : Bucket E} (h : Data c w s.buckets n pend T)
    (hb : s.buckets[into]? = some b) (hl : Asc c l) (hfit : b.es.length + l.length ≤ b.cap) :
    ∃ b' k, (∀ m f, mergeToNonEmpty c ⟨s.buckets, m, f⟩ into l =
        keyIncreased c ⟨s.buckets.set into b', m - k, f⟩ into) ∧
      BOk c b' ∧ b'.cap = b.cap ∧ b'.es.length + k = b.es.length + l.length ∧
      wsum w b'.es = wsum w b.es + wsum w l ∧
      (∀ x, x ∈ b.es → ∃ y ∈ b'.es, Same c y x) ∧ (∀ x, x ∈ l → ∃ y ∈ b'.es, Same c y x) := by
  have hbo := h.at_ok hb
  have main : ∃ r : List E × ℕ, mergeRes c (tmpCap s) b.es l = some r ∧
      Asc c r.1 ∧ r.1.length + r.2 = b.es.length + l.length ∧ wsum w r.1 = wsum w b.es + wsum w l ∧
      (∀ x, x ∈ b.es → ∃ y ∈ r.1, Same c y x) ∧ (∀ x, x ∈ l → ∃ y ∈ r.1, Same c y x) := by
    obtain ⟨i1, i2, i3, i4, i5⟩ := merge_spec hc hw b.es l hbo.asc hl
    obtain ⟨j1, j2, j3, j4, j5⟩ := merge_spec hc hw l b.es hl hbo.asc
    unfold mergeRes
    cases c.storage with
    | doubleBuffer => exact ⟨_, rfl, i1, i2, i3, fun x hx => i5 x (Or.inl hx), fun x hx => i5 x (Or.inr hx)⟩
    | sameSize => exact ⟨_, rfl, i1, i2, i3, fun x hx => i5 x (Or.inl hx), fun x hx => i5 x (Or.inr hx)⟩
    | plain =>
      have := h.cap_tmp hb
      have := hbo.fits
      exact ⟨_, if_pos (by omega), j1, by omega, by rw [j3, add_comm], fun x hx => j5 x (Or.inr hx),
        fun x hx => j5 x (Or.inl hx)⟩
  obtain ⟨r, r1, r2, r3, r4, r5, r6⟩ := main
  obtain ⟨b', f1, f2, f3, f4⟩ := fill_spec (b := b) (l := r.1) (by omega) r2
  refine ⟨b', r.2, ?_, f4, f3, by rw [f2, r3], by rw [f2, r4], by rw [f2]; exact r5, by rw [f2]; exact r6⟩
  intro m f
  have : tmpCap ⟨s.buckets, m, f⟩ = tmpCap s := rfl
  simp only [mergeToNonEmpty, hb, Option.bind_eq_bind, Option.bind_some, this, r1, f1, State.setBucket]

theorem mergeToNonEmpty_ok (hc : c.Lawful) {w : E → M} (hw : c.Weight w) {s : State E} {T : M}
    {l : List E} {into : ℕ} {b : Bucket E} (h : Good c w T l s)
    (hb : s.buckets[into]? = some b) (hne : b.es ≠ []) (hl : Asc c l) (hfit : b.es.length + l.length ≤ b.cap) :
    ∃ s', mergeToNonEmpty c s into l = some s' ∧ Good c w T [] s' ∧ Uncached c s' := by
  obtain ⟨b', k, g1, g2, g3, g4, g5, g6, g7⟩ := mergeToNonEmpty_eq hc hw h.data hb hl hfit
  have hlt := (List.getElem?_eq_some_iff.mp hb).1
  have hle := esAt_le_flat hb
  have hcount := h.data.count
  have hd : Data c w (s.buckets.set into b') (s.count - k) [] T := by
    refine h.data.set hb g3 g2 ?_ ?_
    · simp; omega
    · simp [g5]
  have hes : ∀ j, j ≠ into → esAt (s.buckets.set into b') j = esAt s.buckets j := by
    intro j hj
    rw [esAt_set hlt, if_neg (fun e => hj e.symm)]
  obtain ⟨f', k1, k2, k3⟩ := keyIncreased_ok hc.weak ⟨s.buckets.set into b', s.count - k, s.front⟩ into
    hd.backAt (fun ht => increase_pre h.front (by simp) (by rw [esAt_some hb]; exact hne)
      (by rw [esAt_set hlt, if_pos rfl]; exact ne_of_same g6 hne) hes (by
        intro j hj hji y z hy hz
        rw [hes j hji] at hz
        simp only [esAt_set hlt, if_true] at hy
        obtain ⟨x, hx⟩ := last_of_ne hne
        exact ge_of_same hc.weak g2.asc g6 hx hy (hj x z (by rw [esAt_some hb]; exact hx) hz)) ht)
  exact ⟨_, (g1 s.count s.front).trans k1, ⟨hd, k2⟩, k3⟩

/-! ## Merging two buckets -/

theorem mergeFront (hc : StrictWeak c.lt) {bs bs₁ bs₂ : List (Bucket E)} {f : Front} {A B₁ B₂ : List ℕ} {src dst : ℕ}
    (hback : ∀ i, backAt c bs₁ i = (esAt bs₁ i).getLast?)
    (hback₂ : ∀ i, backAt c bs₂ i = (esAt bs₂ i).getLast?)
    (h : Link f (A ++ dst :: (B₁ ++ src :: B₂))) (hlen : f.pos.length = bs₂.length)
    (hmem : ∀ z, z ∈ A ++ dst :: (B₁ ++ src :: B₂) ↔ esAt bs z ≠ [])
    (hord : (A ++ (B₁ ++ B₂)).Pairwise (geK c bs))
    (h1 : ∀ j, j ≠ dst → esAt bs₁ j = esAt bs j)
    (h2 : ∀ j, j ≠ src → esAt bs₂ j = esAt bs₁ j) (hd : esAt bs₁ dst ≠ []) (hs : esAt bs₂ src = [])
    (hge : ∀ j ∈ B₁ ++ B₂, geK c bs₂ dst j) :
    ∃ f₁ f', keyIncreasedT c bs₁ f dst = some f₁ ∧ removeT f₁ src = some f' ∧ ∃ live, Fr c bs₂ f' live := by
  have hnd := h.nodup
  have hdA : dst ∉ A := fun e => (List.nodup_append.mp hnd).2.2 dst e dst (by simp) rfl
  have hsA : src ∉ A := fun e => (List.nodup_append.mp hnd).2.2 src e src (by simp) rfl
  have hn2 := List.nodup_cons.mp (List.nodup_append.mp hnd).2.1
  have hdB : dst ∉ B₁ ++ B₂ := fun e => hn2.1 (by
    rcases List.mem_append.mp e with e | e
    · simp [e]
    · simp [e])
  have hsd : src ≠ dst := fun e => hn2.1 (by simp [e])
  have hn3 := List.nodup_append.mp hn2.2
  have hsB : src ∉ B₁ ++ B₂ := fun e => by
    rcases List.mem_append.mp e with e | e
    · exact hn3.2.2 src e src (by simp) rfl
    · exact (List.nodup_cons.mp hn3.2.1).1 e
  have hAne : ∀ a ∈ A, esAt bs₁ a ≠ [] := by
    intro a ha
    rw [h1 a (fun e => hdA (e ▸ ha))]
    exact (hmem a).mp (by simp [ha])
  obtain ⟨x, hx⟩ := last_of_ne hd
  obtain ⟨A₁, A₂, f₁, rfl, k2, k3, k4, k5, k6⟩ := keyIncreasedT_spec c bs₁ dst x
    (by rw [hback]; exact hx) A (B₁ ++ src :: B₂) f (by
      intro a ha
      obtain ⟨y, hy⟩ := last_of_ne (hAne a ha)
      exact ⟨y, by rw [hback]; exact hy⟩) h
  obtain ⟨f', m1, m2, m3⟩ := removeT_spec (A := A₁ ++ dst :: (A₂ ++ B₁)) (B := B₂) (b := src) (f := f₁)
    (by simpa using k3)
  refine ⟨f₁, f', k2, m1, A₁ ++ dst :: (A₂ ++ (B₁ ++ B₂)), ?_⟩
  have hord₂ : (A₁ ++ A₂ ++ (B₁ ++ B₂)).Pairwise (geK c bs₂) := by
    refine List.Pairwise.imp_of_mem ?_ hord
    intro i j hi hj hij
    have ne : ∀ {k}, k ∈ A₁ ++ A₂ ++ (B₁ ++ B₂) → esAt bs₂ k = esAt bs k := by
      intro k hk
      rw [h2 k, h1 k]
      · rintro rfl
        rcases List.mem_append.mp hk with hk | hk
        · exact hdA hk
        · exact hdB hk
      · rintro rfl
        rcases List.mem_append.mp hk with hk | hk
        · exact hsA hk
        · exact hsB hk
    exact geK_congr (ne hi) (ne hj) hij
  have hb : ∀ a ∈ A₁ ++ A₂, backAt c bs₂ a = backAt c bs₁ a := by
    intro a ha
    rw [hback, hback₂, h2 a (fun e => hsA (e ▸ ha))]
  have ho := keyIncreasedT_ord hc hback₂ (b := dst) (x := x) (A₁ := A₁) (A₂ := A₂) (B := B₁ ++ B₂)
    (by rw [h2 dst hsd.symm]; exact hx)
    (fun a ha => by rw [h2 a (fun e => hsA (by simp [← e, ha]))]; exact hAne a (by simp [ha])) hord₂ hge
    (fun a ha y hy => k5 a ha y (by rw [← hb a (by simp [ha])]; exact hy))
    (fun a ha y hy => k6 a ha y (by rw [← hb a (by simp [List.mem_of_getLast? ha])]; exact hy))
  refine Fr.join (by simpa using m2) (by rw [m3, k4, hlen]) ?_ (by simpa using hord₂) ho.1 (by simpa using ho.2)
  intro z
  by_cases e1 : z = src
  · subst e1
    have : z ∉ A₁ ∧ z ∉ A₂ ∧ z ∉ B₁ ∧ z ∉ B₂ := by simp at hsA hsB; tauto
    simp [hs, hsd, this]
  · rw [h2 z e1]
    by_cases e2 : z = dst
    · subst e2; simp [hd]
    · rw [h1 z e2, ← hmem z]
      simp [e1, e2]

theorem getElem?_two_split (A B₁ B₂ : List ℕ) (x y : ℕ) :
    (A ++ x :: (B₁ ++ y :: B₂))[A.length]? = some x ∧
    (A ++ x :: (B₁ ++ y :: B₂))[A.length + B₁.length + 1]? = some y := by
  constructor
  · rw [getElem?_mid, if_pos rfl]
  · have : A ++ x :: (B₁ ++ y :: B₂) = (A ++ x :: B₁) ++ y :: B₂ := by simp
    rw [this, getElem?_mid, if_pos (by simp; omega)]

theorem mergeBuckets_ok (hc : c.Lawful) {w : E → M} (hw : c.Weight w) {s : State E} {T : M}
    {pend : List E} {src dst : ℕ} {sb db : Bucket E} (h : Good c w T pend s) (hsd : src ≠ dst)
    (hs : s.buckets[src]? = some sb) (hd : s.buckets[dst]? = some db) (hsn : sb.es ≠ []) (hdn : db.es ≠ [])
    (hfit : db.es.length + sb.es.length ≤ db.cap) :
    ∃ s', mergeBuckets c s dst src = some s' ∧ Good c w T pend s' ∧ SameCaps s s' ∧
      esAt s'.buckets src = [] ∧ ∀ j, j ≠ src → j ≠ dst → esAt s'.buckets j = esAt s.buckets j := by
  have hsl := (List.getElem?_eq_some_iff.mp hs).1
  have hdl := (List.getElem?_eq_some_iff.mp hd).1
  have hsa := (h.data.at_ok hs).asc
  -- the buckets, whatever happens to the front
  obtain ⟨b', k, g1, g2, g3, g4, g5, g6, g7⟩ := mergeToNonEmpty_eq hc hw h.data hd hsa hfit
  have hle := esAt_le_flat hs
  have hle' := esAt_le_flat hd
  have hcount := h.data.count
  have hsl' : src < (s.buckets.set dst b').length := by simpa using hsl
  have hs₁ : (s.buckets.set dst b')[src]? = some sb := by
    rw [List.getElem?_set_ne (fun e => hsd e.symm)]; exact hs
  have hsum : db.es.length + sb.es.length ≤ (flat s.buckets).length := by
    have h1 := flat_set_length hs sb.clear
    have h2 : sb.clear.es.length = 0 := rfl
    have h3 := esAt_le_flat (bs := s.buckets.set src sb.clear) (i := dst) (b := db) (by
      rw [List.getElem?_set_ne hsd]; exact hd)
    omega
  have hd₂ : Data c w ((s.buckets.set dst b').set src sb.clear) (s.count - k) pend T := by
    have d1 : Data c w (s.buckets.set src sb.clear) s.count (sb.es ++ pend) T := by
      refine h.data.set (b' := sb.clear) hs rfl (clear_ok sb) ?_ ?_
      · simp [Bucket.clear]; omega
      · simp [Bucket.clear]
    have d2 : Data c w ((s.buckets.set src sb.clear).set dst b') (s.count - k) pend T := by
      refine d1.set (b := db) (by rw [List.getElem?_set_ne hsd]; exact hd) g3 g2 ?_ ?_
      · simp; omega
      · simp [g5, add_assoc]
    rwa [List.set_comm _ _ hsd] at d2
  have hd₁ok : ∀ b ∈ s.buckets.set dst b', BOk c b := by
    intro b hb
    rcases List.mem_or_eq_of_mem_set hb with hb | rfl
    · exact h.data.ok b hb
    · exact g2
  have es₁ : ∀ j, esAt (s.buckets.set dst b') j = if dst = j then b'.es else esAt s.buckets j := esAt_set hdl
  have es₂ : ∀ j, esAt ((s.buckets.set dst b').set src sb.clear) j =
      if src = j then [] else esAt (s.buckets.set dst b') j := esAt_set hsl'
  have hb'n : b'.es ≠ [] := ne_of_same g6 hdn
  have hcaps : ∀ n f, SameCaps s ⟨(s.buckets.set dst b').set src sb.clear, n, f⟩ := by
    intro n f
    show List.map _ _ = _
    rw [map_cap_set (b' := sb.clear) hs₁ rfl, map_cap_set hd g3]
  -- the last entry of the merged bucket against that of a bucket after the first of the two
  have hge : ∀ (i : ℕ) (ib : Bucket E), s.buckets[i]? = some ib → (∀ x, x ∈ ib.es → ∃ y ∈ b'.es, Same c y x) →
      ib.es ≠ [] → ∀ j, j ≠ src → j ≠ dst → geK c s.buckets i j →
      geK c ((s.buckets.set dst b').set src sb.clear) dst j := by
    intro i ib hib hsame hne j hj1 hj2 hij y z hy hz
    rw [es₂, if_neg hsd, es₁, if_pos rfl] at hy
    rw [es₂, if_neg (fun e => hj1 e.symm), es₁, if_neg (fun e => hj2 e.symm)] at hz
    obtain ⟨x, hx⟩ := last_of_ne hne
    exact ge_of_same hc.weak g2.asc hsame hx hy (hij x z (by rw [esAt_some hib]; exact hx) hz)
  have hsrc : ∀ f : Front, esAt ((s.buckets.set dst b').set src sb.clear) src = [] := by
    intro _
    rw [es₂, if_pos rfl]
  have hoth : ∀ j, j ≠ src → j ≠ dst →
      esAt ((s.buckets.set dst b').set src sb.clear) j = esAt s.buckets j := by
    intro j h1 h2
    rw [es₂, if_neg (fun e => h1 e.symm), es₁, if_neg (fun e => h2 e.symm)]
  cases ht : c.trackFront with
  | false =>
    refine ⟨⟨(s.buckets.set dst b').set src sb.clear, s.count - k,
      ⟨none, s.front.slots, s.front.fend, s.front.pos⟩⟩, ?_, ⟨hd₂, ?_⟩, hcaps _ _, hsrc s.front, hoth⟩
    · have e1 : swapKeys c s dst src = some ⟨s.buckets, s.count, s.front⟩ := by rw [swapKeys_eq, ht]; rfl
      have e2 : keyIncreased c ⟨s.buckets.set dst b', s.count - k, s.front⟩ dst =
          some ⟨s.buckets.set dst b', s.count - k, ⟨none, s.front.slots, s.front.fend, s.front.pos⟩⟩ := by
        rw [keyIncreased, ht, if_neg (by simp)]
      simp only [mergeBuckets, ht, Option.bind_eq_bind, Option.bind_some, if_true, e1, hs, g1, e2,
        hs₁, frontRemove, State.setBucket, if_neg (show ¬ (false = true) by simp)]
    · intro h
      rw [ht] at h
      cases h
  | true =>
    obtain ⟨live, hf⟩ := h.front ht
    -- what is left to do once the front has `dst` before `src`
    have fin : ∀ (sw : Bool) (f₀ : Front) (A B₁ B₂ : List ℕ), larger s.front src dst = some sw →
        (if sw then swapKeys c s dst src else some s) = some ⟨s.buckets, s.count, f₀⟩ →
        Link f₀ (A ++ dst :: (B₁ ++ src :: B₂)) → f₀.pos.length = s.buckets.length →
        (∀ z, z ∈ A ++ dst :: (B₁ ++ src :: B₂) ↔ esAt s.buckets z ≠ []) →
        (A ++ (B₁ ++ B₂)).Pairwise (geK c s.buckets) →
        (∀ j ∈ B₁ ++ B₂, geK c ((s.buckets.set dst b').set src sb.clear) dst j) →
        ∃ s', mergeBuckets c s dst src = some s' ∧ Good c w T pend s' ∧ SameCaps s s' ∧
          esAt s'.buckets src = [] ∧ ∀ j, j ≠ src → j ≠ dst → esAt s'.buckets j = esAt s.buckets j := by
      intro sw f₀ A B₁ B₂ hsw hswap hl hlen hmem hord hgeB
      obtain ⟨f₁, f', m1, m2, m3⟩ := mergeFront hc.weak (bs := s.buckets) (bs₁ := s.buckets.set dst b')
        (bs₂ := (s.buckets.set dst b').set src sb.clear) (backAt_eq hd₁ok) hd₂.backAt hl (by simpa using hlen)
        hmem hord (fun j hj => by rw [es₁, if_neg (fun e => hj e.symm)])
        (fun j hj => by rw [es₂, if_neg (fun e => hj e.symm)]) (by rw [es₁, if_pos rfl]; exact hb'n)
        (hsrc f₀) hgeB
      refine ⟨⟨(s.buckets.set dst b').set src sb.clear, s.count - k, f'⟩, ?_, ⟨hd₂, fun _ => m3⟩, hcaps _ _,
        hsrc f₀, hoth⟩
      have e2 : keyIncreased c ⟨s.buckets.set dst b', s.count - k, f₀⟩ dst =
          some ⟨s.buckets.set dst b', s.count - k, f₁⟩ := by
        rw [keyIncreased, ht, if_pos rfl, m1]
        rfl
      simp only [mergeBuckets, ht, Option.bind_eq_bind, if_true, hsw, Option.bind_some, hswap, hs, g1, e2,
        hs₁, frontRemove, State.setBucket, m2, Option.map_some]
    have hsm : src ∈ live := (hf.mem src).mpr (by rw [esAt_some hs]; exact hsn)
    have hdm : dst ∈ live := (hf.mem dst).mpr (by rw [esAt_some hd]; exact hdn)
    obtain ⟨A, B, rfl, hA, hB, h1, h2, h3⟩ := hf.split hsm
    have hlg : ∀ i j : ℕ, (A ++ src :: B)[i]? = some src → (A ++ src :: B)[j]? = some dst →
        larger s.front src dst = some (decide (i < j)) := by
      intro i j hi hj
      simp only [larger, (hf.link.pos src i).mpr hi, (hf.link.pos dst j).mpr hj]
    have hmem' : dst ∈ A ∨ dst ∈ B := by
      rcases List.mem_append.mp hdm with e | e
      · exact Or.inl e
      · rcases List.mem_cons.mp e with e | e
        · exact absurd e.symm hsd
        · exact Or.inr e
    rcases hmem' with hm | hm
    · -- `dst` comes first
      obtain ⟨A₁, A₂, rfl⟩ := List.append_of_mem hm
      have hsp := getElem?_two_split A₁ A₂ B dst src
      have hassoc : A₁ ++ dst :: A₂ ++ src :: B = A₁ ++ dst :: (A₂ ++ src :: B) := by simp
      have hnd := hf.link.nodup
      rw [hassoc] at hnd
      have hn2 := List.nodup_cons.mp (List.nodup_append.mp hnd).2.1
      have hord2 : (A₁ ++ (A₂ ++ B)).Pairwise (geK c s.buckets) :=
        List.Pairwise.sublist (by
          rw [List.append_assoc]
          exact List.Sublist.append_left (by simp) A₁) h1
      refine fin false s.front A₁ A₂ B ?_ rfl (by rw [← hassoc]; exact hf.link) hf.len
        (by intro z; rw [← hassoc]; exact hf.mem z) hord2 ?_
      · rw [hlg _ _ (by rw [hassoc]; exact hsp.2) (by rw [hassoc]; exact hsp.1)]
        simp
        omega
      · intro j hj
        have hjs : j ≠ src := by
          rintro rfl
          rcases List.mem_append.mp hj with e | e
          · exact hA (by simp [e])
          · exact hB e
        have hjd : j ≠ dst := by
          rintro rfl
          rcases List.mem_append.mp hj with e | e
          · exact hn2.1 (by simp [e])
          · exact hn2.1 (by simp [e])
        refine hge dst db hd g6 hdn j hjs hjd ?_
        have ho := hf.ord
        rw [hassoc] at ho
        have ho2 := List.pairwise_cons.mp (List.pairwise_append.mp ho).2.1
        apply ho2.1
        rcases List.mem_append.mp hj with e | e
        · simp [e]
        · simp [e]
    · -- `src` comes first
      obtain ⟨B₁, B₂, rfl⟩ := List.append_of_mem hm
      have hsp := getElem?_two_split A B₁ B₂ src dst
      obtain ⟨f', k1, k2, k3⟩ := swapFront_spec hf.link (fun e => hsd e.symm) (by rw [hf.len]; exact hdl)
        (by rw [hf.len]; exact hsl)
      have hnd := hf.link.nodup
      have hn2 := List.nodup_cons.mp (List.nodup_append.mp hnd).2.1
      have hn3 := List.nodup_append.mp hn2.2
      have hn4 := List.nodup_cons.mp hn3.2.1
      have dA : dst ∉ A := fun e => (List.nodup_append.mp hnd).2.2 dst e dst (by simp) rfl
      have dB₁ : dst ∉ B₁ := fun e => hn3.2.2 dst e dst (by simp) rfl
      have dB₂ : dst ∉ B₂ := hn4.1
      have sB₁ : src ∉ B₁ := fun e => hB (by simp [e])
      have sB₂ : src ∉ B₂ := fun e => hB (by simp [e])
      have hmap : ∀ l : List ℕ, dst ∉ l → src ∉ l → l.map (Equiv.swap dst src) = l := by
        intro l h1 h2
        conv_rhs => rw [← List.map_id l]
        apply List.map_congr_left
        intro x hx
        exact Equiv.swap_apply_of_ne_of_ne (fun e => h1 (e ▸ hx)) (fun e => h2 (e ▸ hx))
      rw [List.map_append, List.map_cons, List.map_append, List.map_cons, hmap A dA hA, hmap B₁ dB₁ sB₁,
        hmap B₂ dB₂ sB₂, Equiv.swap_apply_left, Equiv.swap_apply_right] at k2
      have hord2 : (A ++ (B₁ ++ B₂)).Pairwise (geK c s.buckets) :=
        List.Pairwise.sublist (List.Sublist.append_left (List.Sublist.append_left (by simp) B₁) A) h1
      refine fin true f' A B₁ B₂ ?_ (by rw [if_pos rfl, swapKeys_eq, ht, k1]; rfl) k2 (by rw [k3, hf.len])
        ?_ hord2 ?_
      · rw [hlg _ _ hsp.1 hsp.2]
        simp
        omega
      · intro z
        rw [← hf.mem z]
        simp only [List.mem_append, List.mem_cons]
        tauto
      · intro j hj
        have hjs : j ≠ src := by
          rintro rfl
          rcases List.mem_append.mp hj with e | e
          · exact sB₁ e
          · exact sB₂ e
        have hjd : j ≠ dst := by
          rintro rfl
          rcases List.mem_append.mp hj with e | e
          · exact dB₁ e
          · exact dB₂ e
        refine hge src sb hs g7 hsn j hjs hjd (h3 j ?_)
        rcases List.mem_append.mp hj with e | e
        · simp [e]
        · simp [e]

/-! ## Moving to an empty bucket -/

/-- `mergeToEmpty`. -/
theorem mergeToEmpty_ok (hc : c.Lawful) {w : E → M} (hw : c.Weight w) {s : State E} {T : M}
    {l : List E} {src dst : ℕ} {sb db : Bucket E} (h : Good c w T l s) (hsd : src ≠ dst)
    (hs : s.buckets[src]? = some sb) (hd : s.buckets[dst]? = some db) (hsn : sb.es ≠ []) (hdn : db.es = [])
    (hl : Asc c l) (hfit : l.length + sb.es.length ≤ db.cap) :
    ∃ s', mergeToEmpty c s dst src l = some s' ∧ Good c w T [] s' ∧ Uncached c s' := by
  have hsl := (List.getElem?_eq_some_iff.mp hs).1
  have hdl := (List.getElem?_eq_some_iff.mp hd).1
  obtain ⟨i1, i2, i3, i4, i5⟩ := merge_spec hc hw l sb.es hl (h.data.at_ok hs).asc
  obtain ⟨b', f1, f2, f3, f4⟩ := fill_spec (b := db) (l := (merge c l sb.es).1) (by omega) i1
  have hle := esAt_le_flat hs
  have hcount := h.data.count
  have hs₁ : (s.buckets.set dst b')[src]? = some sb := by
    rw [List.getElem?_set_ne (fun e => hsd e.symm)]; exact hs
  have hd₂ : Data c w ((s.buckets.set dst b').set src sb.clear) (s.count - (merge c l sb.es).2) [] T := by
    have d1 : Data c w (s.buckets.set src sb.clear) s.count (sb.es ++ l) T := by
      refine h.data.set (b' := sb.clear) hs rfl (clear_ok sb) ?_ ?_
      · simp [Bucket.clear]; omega
      · simp [Bucket.clear]
    have d2 : Data c w ((s.buckets.set src sb.clear).set dst b') (s.count - (merge c l sb.es).2) [] T := by
      refine d1.set (b := db) (by rw [List.getElem?_set_ne hsd]; exact hd) f3 f4 ?_ ?_
      · rw [f2, hdn]; simp; omega
      · rw [f2, i3]; simp [hdn, add_comm]
    rwa [List.set_comm _ _ hsd] at d2
  have es₂ : ∀ j, esAt ((s.buckets.set dst b').set src sb.clear) j =
      if src = j then [] else if dst = j then b'.es else esAt s.buckets j := by
    intro j
    rw [esAt_set (by simpa using hsl), esAt_set hdl]
    rfl
  have hsame : ∀ x, x ∈ sb.es → ∃ y ∈ b'.es, Same c y x := by
    rw [f2]
    exact fun x hx => i5 x (Or.inr hx)
  have hbn : b'.es ≠ [] := ne_of_same hsame hsn
  obtain ⟨f', m1, m2⟩ := swapKeys_move (bs := s.buckets)
    (s := ⟨(s.buckets.set dst b').set src sb.clear, s.count - (merge c l sb.es).2, s.front⟩)
    (src := src) (dst := dst) h.front (by simp) hsl hdl hsd (by rw [esAt_some hs]; exact hsn)
    (by rw [esAt_some hd]; exact hdn) (by simp only; rw [es₂, if_pos rfl])
    (by simp only; rw [es₂, if_neg hsd, if_pos rfl]; exact hbn)
    (by intro j j1 j2; simp only; rw [es₂, if_neg (fun e => j1 e.symm), if_neg (fun e => j2 e.symm)])
  obtain ⟨f'', k1, k2, k3⟩ := keyIncreased_ok hc.weak
    ⟨(s.buckets.set dst b').set src sb.clear, s.count - (merge c l sb.es).2, f'⟩ dst hd₂.backAt (by
      intro ht
      obtain ⟨A, B, n1, n2, n3, n4, n5, n6⟩ := m2 ht
      refine ⟨A, B, n1, n2, n3, n4, ?_⟩
      intro j hj y z hy hz
      obtain ⟨o1, o2, o3⟩ := n6 j hj
      simp only at hy hz
      rw [es₂, if_neg hsd, if_pos rfl] at hy
      rw [es₂, if_neg (fun e => o2 e.symm), if_neg (fun e => o3 e.symm)] at hz
      obtain ⟨x, hx⟩ := last_of_ne hsn
      exact ge_of_same hc.weak f4.asc hsame hx hy (o1 x z (by rw [esAt_some hs]; exact hx) hz))
  refine ⟨⟨(s.buckets.set dst b').set src sb.clear, s.count - (merge c l sb.es).2, f''⟩, ?_, ⟨hd₂, k2⟩, k3⟩
  simp only [mergeToEmpty, hs, hd, Option.bind_eq_bind, Option.bind_some, f1, State.setBucket, m1, k1]

/-- `moveToEmpty`. -/
theorem moveToEmpty_ok {w : E → M} {s : State E} {T : M}
    {pend : List E} {src dst : ℕ} {sb db : Bucket E} (h : Good c w T pend s) (hsd : src ≠ dst)
    (hs : s.buckets[src]? = some sb) (hd : s.buckets[dst]? = some db) (hsn : sb.es ≠ []) (hdn : db.es = [])
    (hfit : sb.es.length ≤ db.cap) :
    ∃ s', moveToEmpty c s dst src = some s' ∧ Good c w T pend s' ∧ SameCaps s s' ∧
      esAt s'.buckets src = [] ∧ ∀ j, j ≠ src → j ≠ dst → esAt s'.buckets j = esAt s.buckets j := by
  have hsl := (List.getElem?_eq_some_iff.mp hs).1
  have hdl := (List.getElem?_eq_some_iff.mp hd).1
  obtain ⟨b', f1, f2, f3, f4⟩ := fill_spec (b := db) (l := sb.es) hfit (h.data.at_ok hs).asc
  have hs₁ : (s.buckets.set dst b')[src]? = some sb := by
    rw [List.getElem?_set_ne (fun e => hsd e.symm)]; exact hs
  have hd₂ : Data c w ((s.buckets.set dst b').set src sb.clear) s.count pend T := by
    have d1 : Data c w (s.buckets.set src sb.clear) s.count (sb.es ++ pend) T := by
      refine h.data.set (b' := sb.clear) hs rfl (clear_ok sb) ?_ ?_
      · simp [Bucket.clear]; omega
      · simp [Bucket.clear]
    have d2 : Data c w ((s.buckets.set src sb.clear).set dst b') s.count pend T := by
      refine d1.set (b := db) (by rw [List.getElem?_set_ne hsd]; exact hd) f3 f4 ?_ ?_
      · rw [f2]; simp [hdn]; omega
      · rw [f2]; simp [hdn]
    rwa [List.set_comm _ _ hsd] at d2
  have es₂ : ∀ j, esAt ((s.buckets.set dst b').set src sb.clear) j =
      if src = j then [] else if dst = j then sb.es else esAt s.buckets j := by
    intro j
    rw [esAt_set (by simpa using hsl), esAt_set hdl, f2]
    rfl
  obtain ⟨f', m1, m2⟩ := swapKeys_move (bs := s.buckets)
    (s := ⟨(s.buckets.set dst b').set src sb.clear, s.count, s.front⟩)
    (src := src) (dst := dst) h.front (by simp) hsl hdl hsd (by rw [esAt_some hs]; exact hsn)
    (by rw [esAt_some hd]; exact hdn) (by simp only; rw [es₂, if_pos rfl])
    (by simp only; rw [es₂, if_neg hsd, if_pos rfl]; exact hsn)
    (by intro j j1 j2; simp only; rw [es₂, if_neg (fun e => j1 e.symm), if_neg (fun e => j2 e.symm)])
  refine ⟨⟨(s.buckets.set dst b').set src sb.clear, s.count, f'⟩, ?_, ⟨hd₂, ?_⟩, ?_, ?_, ?_⟩
  · simp only [moveToEmpty, hs, hd, Option.bind_eq_bind, Option.bind_some, f1, State.setBucket, m1]
  · intro ht
    obtain ⟨A, B, n1, n2, n3, n4, n5, n6⟩ := m2 ht
    refine ⟨A ++ dst :: B, Fr.join n1 n2 n3 n4 ?_ ?_⟩
    · intro a ha x z hx hz
      obtain ⟨o1, o2, o3⟩ := n5 a ha
      simp only at hx hz
      rw [es₂, if_neg (fun e => o2 e.symm), if_neg (fun e => o3 e.symm)] at hx
      rw [es₂, if_neg hsd, if_pos rfl] at hz
      exact o1 x z hx (by rw [esAt_some hs]; exact hz)
    · intro j hj x z hx hz
      obtain ⟨o1, o2, o3⟩ := n6 j hj
      simp only at hx hz
      rw [es₂, if_neg (fun e => o2 e.symm), if_neg (fun e => o3 e.symm)] at hz
      rw [es₂, if_neg hsd, if_pos rfl] at hx
      exact o1 x z (by rw [esAt_some hs]; exact hx) hz
  · show List.map _ _ = _
    rw [map_cap_set (b' := sb.clear) hs₁ rfl, map_cap_set hd f3]
  · simp only
    rw [es₂, if_pos rfl]
  · intro j j1 j2
    simp only
    rw [es₂, if_neg (fun e => j1 e.symm), if_neg (fun e => j2 e.symm)]

/-- `assignNew`. -/
theorem assignNew_ok (hc : c.Lawful) {w : E → M} {s : State E} {T : M}
    {l : List E} {i : ℕ} {b : Bucket E} (h : Good c w T l s) (hb : s.buckets[i]? = some b) (hbn : b.es = [])
    (hl : Asc c l) (hfit : l.length ≤ b.cap) (hne : c.trackFront = true → l ≠ []) :
    ∃ s', assignNew c s i l = some s' ∧ Good c w T [] s' ∧ Uncached c s' := by
  have hlt := (List.getElem?_eq_some_iff.mp hb).1
  obtain ⟨b', f1, f2, f3, f4⟩ := fill_spec (b := b) hfit hl
  have hd : Data c w (s.buckets.set i b') s.count [] T := by
    refine h.data.set hb f3 f4 ?_ ?_
    · rw [f2, hbn]; simp
    · rw [f2, hbn]; simp
  have es₂ := esAt_set (b := b') hlt
  obtain ⟨f', k1, k2, k3⟩ := frontInsert_ok hc.weak (bs := s.buckets) ⟨s.buckets.set i b', s.count, s.front⟩ i
    hd.backAt h.front (by simp) hlt (by rw [esAt_some hb]; exact hbn)
    (by intro ht; simp only; rw [es₂, if_pos rfl, f2]; exact hne ht)
    (by intro j hj; simp only; rw [es₂, if_neg (fun e => hj e.symm)])
  refine ⟨⟨s.buckets.set i b', s.count, f'⟩, ?_, ⟨hd, k2⟩, k3⟩
  simp only [assignNew, hb, Option.bind_eq_bind, Option.bind_some, f1, State.setBucket, k1]

/-- `mergeToTmp`. -/
theorem mergeToTmp_ok (hc : c.Lawful) {w : E → M} (hw : c.Weight w) {s : State E} {T : M}
    {l : List E} {i : ℕ} {b b' : Bucket E} (h : Good c w T l s) (hb : s.buckets[i]? = some b) (hbn : b.es ≠ [])
    (hl : Asc c l) (hb' : s.buckets[i + 1]? = some b') (hfit : l.length ≤ b.cap) :
    ∃ l' s', mergeToTmp c s i l = some (l', s') ∧ Good c w T l' s' ∧ SameCaps s s' ∧ Asc c l' ∧
      l'.length ≤ l.length + b.es.length ∧ s'.buckets = s.buckets.set i b.clear := by
  have hlt := (List.getElem?_eq_some_iff.mp hb).1
  obtain ⟨i1, i2, i3, i4, i5⟩ := merge_spec hc hw l b.es hl (h.data.at_ok hb).asc
  have hle := esAt_le_flat hb
  have hcount := h.data.count
  have hfits := (h.data.at_ok hb).fits
  have h1 := h.data.cap_dbl hb hb'
  have h2 := h.data.cap_tmp hb'
  have hd : Data c w (s.buckets.set i b.clear) (s.count - (merge c l b.es).2) (merge c l b.es).1 T := by
    refine h.data.set (b' := b.clear) hb rfl (clear_ok b) ?_ ?_
    · simp [Bucket.clear]; omega
    · simp [Bucket.clear, i3, add_comm]
  have es₂ := esAt_set (b := b.clear) hlt
  obtain ⟨f', k1, k2, k3⟩ := frontRemove_ok (bs := s.buckets)
    ⟨s.buckets.set i b.clear, s.count - (merge c l b.es).2, s.front⟩ i h.front (by simp)
    (by rw [esAt_some hb]; exact hbn) (by simp only; rw [es₂, if_pos rfl]; rfl)
    (by intro j hj; simp only; rw [es₂, if_neg (fun e => hj e.symm)])
  refine ⟨(merge c l b.es).1, ⟨s.buckets.set i b.clear, s.count - (merge c l b.es).2, f'⟩, ?_, ⟨hd, k2⟩, ?_, i1,
    by omega, rfl⟩
  · simp only [mergeToTmp, hb, Option.bind_eq_bind, Option.bind_some]
    rw [if_pos (by omega)]
    simp only [State.setBucket, k1, Option.bind_some]
  · show List.map _ _ = _
    rw [map_cap_set (b' := b.clear) hb rfl]

end Verif.Geobucket
