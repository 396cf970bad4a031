import Verif.GeoFrontProofs
import Verif.GeoDataProofs
import Mathlib.Data.List.Induction

/-!
# Helper lemmas about the order of the tracked front of a `Geobucket`
-/

namespace Verif.Geobucket

variable {E M : Type} [AddCommMonoid M] {c : Conf E}

/-- The last entry of bucket `i` is not less than that of bucket `j`. -/
def geK (c : Conf E) (bs : List (Bucket E)) (i j : ℕ) : Prop :=
  ∀ x y, (esAt bs i).getLast? = some x → (esAt bs j).getLast? = some y → c.lt x y = false

/-- The front lists the buckets that are not empty, largest last entry first. -/
structure Fr (c : Conf E) (bs : List (Bucket E)) (f : Front) (live : List ℕ) : Prop where
  link : Link f live
  len : f.pos.length = bs.length
  mem : ∀ b, b ∈ live ↔ esAt bs b ≠ []
  ord : live.Pairwise (geK c bs)

/-- The front is in order, if it is tracked. -/
def FrontOk (c : Conf E) (bs : List (Bucket E)) (f : Front) : Prop :=
  c.trackFront = true → ∃ live, Fr c bs f live

theorem last_of_ne {l : List E} (h : l ≠ []) : ∃ x, l.getLast? = some x :=
  ⟨_, List.getLast?_eq_some_getLast h⟩

theorem geK_trans (hc : StrictWeak c.lt) {bs : List (Bucket E)} {i j k : ℕ} (hj : esAt bs j ≠ [])
    (h1 : geK c bs i j) (h2 : geK c bs j k) : geK c bs i k := by
  intro x z hx hz
  obtain ⟨y, hy⟩ := last_of_ne hj
  exact hc.ge_trans (h1 x y hx hy) (h2 y z hy hz)

theorem geK_refl (hc : StrictWeak c.lt) (bs : List (Bucket E)) (i : ℕ) : geK c bs i i := by
  intro x y hx hy
  rw [hx] at hy
  cases hy
  exact hc.irrefl _

theorem geK_congr {bs bs' : List (Bucket E)} {i j : ℕ} (hi : esAt bs' i = esAt bs i)
    (hj : esAt bs' j = esAt bs j) (h : geK c bs i j) : geK c bs' i j := by
  intro x y hx hy
  rw [hi] at hx
  rw [hj] at hy
  exact h x y hx hy

theorem Fr.split {bs : List (Bucket E)} {f : Front} {live : List ℕ} (h : Fr c bs f live) {b : ℕ}
    (hb : b ∈ live) : ∃ A B, live = A ++ b :: B ∧ b ∉ A ∧ b ∉ B ∧ (A ++ B).Pairwise (geK c bs) ∧
      (∀ a ∈ A, geK c bs a b) ∧ (∀ j ∈ B, geK c bs b j) := by
  obtain ⟨A, B, rfl⟩ := List.append_of_mem hb
  have hn := h.link.nodup
  rw [List.nodup_append] at hn
  have hn2 := List.nodup_cons.mp hn.2.1
  have ho := List.pairwise_append.mp h.ord
  have ho2 := List.pairwise_cons.mp ho.2.1
  refine ⟨A, B, rfl, ?_, hn2.1, ?_, ?_, ho2.1⟩
  · intro ha
    exact hn.2.2 b ha b List.mem_cons_self rfl
  · exact List.pairwise_append.mpr ⟨ho.1, ho2.2, fun a ha j hj => ho.2.2 a ha j (List.mem_cons_of_mem _ hj)⟩
  · intro a ha
    exact ho.2.2 a ha b List.mem_cons_self

theorem Fr.join {bs : List (Bucket E)} {f : Front} {A B : List ℕ} {b : ℕ} (h1 : Link f (A ++ b :: B))
    (h2 : f.pos.length = bs.length) (h3 : ∀ z, z ∈ A ++ b :: B ↔ esAt bs z ≠ [])
    (h4 : (A ++ B).Pairwise (geK c bs)) (h5 : ∀ a ∈ A, geK c bs a b) (h6 : ∀ j ∈ B, geK c bs b j) :
    Fr c bs f (A ++ b :: B) := by
  refine ⟨h1, h2, h3, ?_⟩
  have h4' := List.pairwise_append.mp h4
  refine List.pairwise_append.mpr ⟨h4'.1, List.pairwise_cons.mpr ⟨h6, h4'.2.1⟩, ?_⟩
  intro a ha j hj
  rcases List.mem_cons.mp hj with rfl | hj
  · exact h5 a ha
  · exact h4'.2.2 a ha j hj

/-- What is known about others stays known when bucket `b` changes. -/
theorem pairwise_other {bs bs' : List (Bucket E)} {l : List ℕ} {b : ℕ} (hb : b ∉ l)
    (hes : ∀ j, j ≠ b → esAt bs' j = esAt bs j) (h : l.Pairwise (geK c bs)) :
    l.Pairwise (geK c bs') := by
  refine List.Pairwise.imp_of_mem ?_ h
  intro i j hi hj hij
  exact geK_congr (hes i (fun e => hb (e ▸ hi))) (hes j (fun e => hb (e ▸ hj))) hij

/-! ## `keyIncreased` -/

theorem incLoop_spec (c : Conf E) (bs : List (Bucket E)) (b : ℕ) (x : E) (hx : backAt c bs b = some x) :
    ∀ (A : List ℕ) (B : List ℕ) (f : Front), (∀ a ∈ A, ∃ y, backAt c bs a = some y) →
    Link (fillHole f A.length b) (A ++ b :: B) →
    ∃ A₁ A₂ f', A = A₁ ++ A₂ ∧ incLoop c bs b A.length f = some (A₁.length, f') ∧
      Link (fillHole f' A₁.length b) (A₁ ++ b :: (A₂ ++ B)) ∧ f'.pos.length = f.pos.length ∧
      (∀ a ∈ A₂, ∀ y, backAt c bs a = some y → c.lt y x = true) ∧
      (∀ a, A₁.getLast? = some a → ∀ y, backAt c bs a = some y → c.lt y x = false) := by
  intro A
  induction A using List.reverseRecOn with
  | nil =>
    intro B f _ h
    exact ⟨[], [], f, rfl, rfl, by simpa using h, rfl, by simp, by simp⟩
  | append_singleton A q ih =>
    intro B f hA h
    obtain ⟨y, hy⟩ := hA q (by simp)
    have h' : Link (fillHole f (A.length + 1) b) (A ++ q :: b :: B) := by simpa using h
    obtain ⟨g1, f', g2, g3, g4, _⟩ := h'.holeDown
    have e : (A ++ [q]).length = A.length + 1 := by simp
    cases hlt : c.lt y x with
    | false =>
      refine ⟨A ++ [q], [], f, by simp, ?_, by simpa using h, rfl, by simp, ?_⟩
      · rw [e]
        simp [incLoop, g1, hy, hx, hlt]
      · intro a ha y' hy'
        simp at ha
        subst ha
        rw [hy] at hy'
        cases hy'
        exact hlt
    | true =>
      obtain ⟨A₁, A₂, f'', k1, k2, k3, k4, k5, k6⟩ := ih (q :: B) f'
        (fun a ha => hA a (List.mem_append_left _ ha)) g3
      refine ⟨A₁, A₂ ++ [q], f'', by rw [k1, List.append_assoc], ?_, by simpa using k3, k4.trans g4, ?_, k6⟩
      · rw [e]
        obtain ⟨f₁, m1, m2⟩ := Option.bind_eq_some_iff.mp g2
        simp only [incLoop, g1, hy, hx, hlt, m1, m2, if_true, Option.bind_eq_bind, Option.bind_some]
        exact k2
      · intro a ha y' hy'
        rcases List.mem_append.mp ha with ha | ha
        · exact k5 a ha y' hy'
        · simp at ha
          subst ha
          rw [hy] at hy'
          cases hy'
          exact hlt

theorem keyIncreasedT_spec (c : Conf E) (bs : List (Bucket E)) (b : ℕ) (x : E)
    (hx : backAt c bs b = some x) (A B : List ℕ) (f : Front)
    (hA : ∀ a ∈ A, ∃ y, backAt c bs a = some y) (h : Link f (A ++ b :: B)) :
    ∃ A₁ A₂ f', A = A₁ ++ A₂ ∧ keyIncreasedT c bs f b = some f' ∧
      Link f' (A₁ ++ b :: (A₂ ++ B)) ∧ f'.pos.length = f.pos.length ∧
      (∀ a ∈ A₂, ∀ y, backAt c bs a = some y → c.lt y x = true) ∧
      (∀ a, A₁.getLast? = some a → ∀ y, backAt c bs a = some y → c.lt y x = false) := by
  have hb : (A ++ b :: B)[A.length]? = some b := by rw [getElem?_mid, if_pos rfl]
  have hp := (h.pos b A.length).mpr hb
  obtain ⟨A₁, A₂, f', k1, k2, k3, k4, k5, k6⟩ := incLoop_spec c bs b x hx A B f hA (h.fill hb)
  refine ⟨A₁, A₂, fillHole f' A₁.length b, k1, ?_, k3, by simp [fillHole, k4], k5, k6⟩
  simp only [keyIncreasedT, hp, k2, Option.bind_eq_bind, Option.bind_some]
  apply settle_some
  · have h1 := k3.le
    have : (A₁ ++ b :: (A₂ ++ B)).length = A₁.length + (A₂ ++ B).length + 1 := by simp; omega
    have : (fillHole f' A₁.length b).slots.length = f'.slots.length := by simp [fillHole]
    omega
  · rw [k4]
    exact h.mem_lt (by simp)

/-- The order that `keyIncreased` restores. -/
theorem keyIncreasedT_ord (hc : StrictWeak c.lt) {bs : List (Bucket E)} {A₁ A₂ B : List ℕ} {b : ℕ} {x : E}
    (hback : ∀ i, backAt c bs i = (esAt bs i).getLast?) (hx : (esAt bs b).getLast? = some x)
    (hne : ∀ a ∈ A₁, esAt bs a ≠ [])
    (h4 : (A₁ ++ A₂ ++ B).Pairwise (geK c bs)) (h6 : ∀ j ∈ B, geK c bs b j)
    (k5 : ∀ a ∈ A₂, ∀ y, backAt c bs a = some y → c.lt y x = true)
    (k6 : ∀ a, A₁.getLast? = some a → ∀ y, backAt c bs a = some y → c.lt y x = false) :
    (∀ a ∈ A₁, geK c bs a b) ∧ (∀ j ∈ A₂ ++ B, geK c bs b j) := by
  constructor
  · intro a ha
    obtain ⟨l, hl⟩ := last_of_ne (E := ℕ) (l := A₁) (List.ne_nil_of_mem ha)
    have hlm : l ∈ A₁ := List.mem_of_getLast? hl
    have hlb : geK c bs l b := by
      intro y z hy hz
      rw [hx] at hz
      cases hz
      exact k6 l hl y (by rw [hback]; exact hy)
    obtain ⟨A', rfl⟩ := List.getLast?_eq_some_iff.mp hl
    rcases List.mem_append.mp ha with ha | ha
    · have h4' := (List.pairwise_append.mp (List.pairwise_append.mp h4).1).1
      exact geK_trans hc (hne l hlm) ((List.pairwise_append.mp h4').2.2 a ha l (by simp)) hlb
    · simp at ha
      subst ha
      exact hlb
  · intro j hj
    rcases List.mem_append.mp hj with hj | hj
    · intro z y hz hy
      rw [hx] at hz
      cases hz
      exact hc.asymm (k5 j hj y (by rw [hback]; exact hy))
    · exact h6 j hj

theorem keyIncreased_ok (hc : StrictWeak c.lt) (s : State E) (b : ℕ)
    (hback : ∀ i, backAt c s.buckets i = (esAt s.buckets i).getLast?)
    (h : c.trackFront = true → ∃ A B, Link s.front (A ++ b :: B) ∧ s.front.pos.length = s.buckets.length ∧
      (∀ z, z ∈ A ++ b :: B ↔ esAt s.buckets z ≠ []) ∧ (A ++ B).Pairwise (geK c s.buckets) ∧
      ∀ j ∈ B, geK c s.buckets b j) :
    ∃ f', keyIncreased c s b = some ⟨s.buckets, s.count, f'⟩ ∧ FrontOk c s.buckets f' ∧
      (c.trackFront = false → f'.cached = none) := by
  cases ht : c.trackFront with
  | false =>
    refine ⟨_, by rw [keyIncreased, ht]; rfl, ?_, fun _ => rfl⟩
    intro h
    rw [ht] at h
    cases h
  | true =>
    obtain ⟨A, B, h1, h2, h3, h4, h6⟩ := h ht
    obtain ⟨x, hx⟩ := last_of_ne ((h3 b).mp (by simp))
    obtain ⟨A₁, A₂, f', rfl, k2, k3, k4, k5, k6⟩ := keyIncreasedT_spec c s.buckets b x
      (by rw [hback]; exact hx) A B s.front (by
        intro a ha
        obtain ⟨y, hy⟩ := last_of_ne ((h3 a).mp (List.mem_append_left _ ha))
        exact ⟨y, by rw [hback]; exact hy⟩) h1
    refine ⟨f', by simp [keyIncreased, ht, k2], fun _ => ⟨A₁ ++ b :: (A₂ ++ B), ?_⟩, nofun⟩
    have ho := keyIncreasedT_ord hc hback hx (fun a ha => (h3 a).mp (by simp [ha])) h4 h6 k5 k6
    refine Fr.join k3 (k4.trans h2) ?_ (by rw [← List.append_assoc]; exact h4) ho.1 ho.2
    intro z
    rw [← h3 z]
    simp only [List.mem_append, List.mem_cons]
    tauto

/-- Bucket `b` gets entries with a last one that is not less than the last one before. -/
theorem increase_pre {bs bs' : List (Bucket E)} {f : Front} {b : ℕ}
    (hf : FrontOk c bs f) (hlen : bs'.length = bs.length) (hb : esAt bs b ≠ []) (hb' : esAt bs' b ≠ [])
    (hes : ∀ j, j ≠ b → esAt bs' j = esAt bs j)
    (hge : ∀ j, geK c bs b j → j ≠ b → geK c bs' b j) (ht : c.trackFront = true) :
    ∃ A B, Link f (A ++ b :: B) ∧ f.pos.length = bs'.length ∧
      (∀ z, z ∈ A ++ b :: B ↔ esAt bs' z ≠ []) ∧ (A ++ B).Pairwise (geK c bs') ∧
      ∀ j ∈ B, geK c bs' b j := by
  obtain ⟨live, h⟩ := hf ht
  obtain ⟨A, B, rfl, hA, hB, h1, h2, h3⟩ := h.split ((h.mem b).mpr hb)
  refine ⟨A, B, h.link, h.len.trans hlen.symm, ?_, ?_, ?_⟩
  · intro z
    rw [h.mem]
    by_cases e : z = b
    · subst e; exact ⟨fun _ => hb', fun _ => hb⟩
    · rw [hes z e]
  · exact pairwise_other (by simp [hA, hB]) hes h1
  · intro j hj
    exact hge j (h3 j hj) (fun e => hB (e ▸ hj))

/-! ## `insert` -/

theorem frontInsert_ok (hc : StrictWeak c.lt) (s : State E) {bs : List (Bucket E)} (b : ℕ)
    (hback : ∀ i, backAt c s.buckets i = (esAt s.buckets i).getLast?)
    (hf : FrontOk c bs s.front) (hlen : s.buckets.length = bs.length) (hbl : b < bs.length)
    (hb : esAt bs b = []) (hb' : c.trackFront = true → esAt s.buckets b ≠ [])
    (hes : ∀ j, j ≠ b → esAt s.buckets j = esAt bs j) :
    ∃ f', frontInsert c s b = some ⟨s.buckets, s.count, f'⟩ ∧ FrontOk c s.buckets f' ∧
      (c.trackFront = false → f'.cached = none) := by
  cases ht : c.trackFront with
  | false =>
    refine ⟨_, by rw [frontInsert, ht]; rfl, ?_, fun _ => rfl⟩
    intro h
    rw [ht] at h
    cases h
  | true =>
    have hb' := hb' ht
    obtain ⟨live, h⟩ := hf ht
    have hbn : b ∉ live := by rw [h.mem]; simp [hb]
    obtain ⟨f₁, g1, g2, g3, g4⟩ : ∃ f₁, (if s.front.fend = s.front.slots.length then
        reserveCapacity s.front (s.front.fend + 1) else some s.front) = some f₁ ∧ Link f₁ live ∧
        f₁.pos.length = s.front.pos.length ∧ f₁.fend < f₁.slots.length := by
      have hle := h.link.le
      have hfe := h.link.fend
      split
      · obtain ⟨f', k1, k2, k3, k4, k5⟩ := reserveCapacity_spec h.link (n := s.front.fend + 1) (by omega)
        exact ⟨f', k1, k2, k3, by rw [k4, k5]; omega⟩
      · exact ⟨_, rfl, h.link, rfl, by omega⟩
    obtain ⟨f₂, m1, m2, m3⟩ := append_spec g2 (b := b) (by rw [g3, h.len]; exact hbl) hbn g4
    obtain ⟨x, hx⟩ := last_of_ne hb'
    have hmem : ∀ z, z ∈ live ++ [b] ↔ esAt s.buckets z ≠ [] := by
      intro z
      by_cases e : z = b
      · subst e; simp [hb']
      · simp only [List.mem_append, List.mem_singleton, e, or_false]
        rw [h.mem, hes z e]
    obtain ⟨A₁, A₂, f', rfl, k2, k3, k4, k5, k6⟩ := keyIncreasedT_spec c s.buckets b x
      (by rw [hback]; exact hx) live [] f₂ (by
        intro a ha
        obtain ⟨y, hy⟩ := last_of_ne ((hmem a).mp (List.mem_append_left _ ha))
        exact ⟨y, by rw [hback]; exact hy⟩) m2
    refine ⟨f', ?_, fun _ => ⟨A₁ ++ b :: (A₂ ++ []), ?_⟩, nofun⟩
    · rw [frontInsert, ht, if_pos rfl, g1]
      obtain ⟨f₃, n1, n2⟩ := Option.bind_eq_some_iff.mp m1
      simp only [Option.bind_eq_bind, Option.bind_some, n1, n2, k2]
    · have hord : (A₁ ++ A₂ ++ []).Pairwise (geK c s.buckets) := by
        rw [List.append_nil]
        exact pairwise_other hbn hes h.ord
      have ho := keyIncreasedT_ord hc hback hx (fun a ha => (hmem a).mp (by simp [ha])) hord (by simp) k5 k6
      refine Fr.join k3 (by rw [k4, m3, g3, h.len, hlen]) ?_ (by rw [← List.append_assoc]; exact hord) ho.1 ho.2
      intro z
      rw [← hmem z]
      simp only [List.mem_append, List.mem_cons]
      tauto

/-! ## `remove` -/

theorem frontRemove_ok (s : State E) {bs : List (Bucket E)} (b : ℕ)
    (hf : FrontOk c bs s.front) (hlen : s.buckets.length = bs.length)
    (hb : esAt bs b ≠ []) (hb' : esAt s.buckets b = [])
    (hes : ∀ j, j ≠ b → esAt s.buckets j = esAt bs j) :
    ∃ f', frontRemove c s b = some ⟨s.buckets, s.count, f'⟩ ∧ FrontOk c s.buckets f' ∧
      (c.trackFront = false → f'.cached = none) := by
  cases ht : c.trackFront with
  | false =>
    refine ⟨_, by rw [frontRemove, ht]; rfl, ?_, fun _ => rfl⟩
    intro h
    rw [ht] at h
    cases h
  | true =>
    obtain ⟨live, h⟩ := hf ht
    obtain ⟨A, B, rfl, hA, hB, h1, _, _⟩ := h.split ((h.mem b).mpr hb)
    obtain ⟨f', k1, k2, k3⟩ := removeT_spec h.link
    refine ⟨f', by simp [frontRemove, ht, k1], fun _ => ⟨A ++ B, k2, by rw [k3, h.len, hlen], ?_, ?_⟩, nofun⟩
    · intro z
      by_cases e : z = b
      · subst e; simp [hb', hA, hB]
      · rw [hes z e, ← h.mem]
        simp [e]
    · exact pairwise_other (by simp [hA, hB]) hes h1

/-! ## `swapKeys` -/

theorem swapKeys_eq (s : State E) (a b : ℕ) : swapKeys c s a b =
    if c.trackFront then (swapFront s.front a b).map (fun f => ⟨s.buckets, s.count, f⟩) else some s := by
  unfold swapKeys swapFront
  split
  · cases s.front.pos[a]? <;> simp only [Option.bind_eq_bind, Option.bind_none, Option.bind_some, Option.map_none]
    cases s.front.pos[b]? <;> simp only [Option.bind_none, Option.bind_some, Option.map_none]
    cases s.front.setPos a _ <;> simp only [Option.bind_none, Option.bind_some, Option.map_none]
    cases Front.setPos _ b _ <;> simp only [Option.bind_none, Option.bind_some, Option.map_none]
    cases writeBack _ a <;> simp only [Option.bind_none, Option.bind_some, Option.map_none]
    cases writeBack _ b <;> rfl
  · rfl

/-- The entries of bucket `src` go to the empty bucket `dst`. -/
theorem swapKeys_move {s : State E} {bs : List (Bucket E)} {src dst : ℕ}
    (hf : FrontOk c bs s.front) (hlen : s.buckets.length = bs.length) (hsl : src < bs.length)
    (hdl : dst < bs.length) (hsd : src ≠ dst) (hs : esAt bs src ≠ []) (hd : esAt bs dst = [])
    (hs' : esAt s.buckets src = []) (hd' : esAt s.buckets dst ≠ [])
    (hes : ∀ j, j ≠ src → j ≠ dst → esAt s.buckets j = esAt bs j) :
    ∃ f', swapKeys c s src dst = some ⟨s.buckets, s.count, f'⟩ ∧
      (c.trackFront = true → ∃ A B, Link f' (A ++ dst :: B) ∧ f'.pos.length = s.buckets.length ∧
        (∀ z, z ∈ A ++ dst :: B ↔ esAt s.buckets z ≠ []) ∧ (A ++ B).Pairwise (geK c s.buckets) ∧
        (∀ a ∈ A, geK c bs a src ∧ a ≠ src ∧ a ≠ dst) ∧
        ∀ j ∈ B, geK c bs src j ∧ j ≠ src ∧ j ≠ dst) := by
  cases ht : c.trackFront with
  | false => exact ⟨s.front, by rw [swapKeys_eq, ht]; rfl, nofun⟩
  | true =>
    obtain ⟨live, h⟩ := hf ht
    obtain ⟨A, B, rfl, hA, hB, h1, h2, h3⟩ := h.split ((h.mem src).mpr hs)
    obtain ⟨f', k1, k2, k3⟩ := swapFront_spec h.link hsd (by rw [h.len]; exact hsl) (by rw [h.len]; exact hdl)
    have hdn : dst ∉ A ++ src :: B := by rw [h.mem]; simp [hd]
    have hdA : dst ∉ A := fun h => hdn (by simp [h])
    have hdB : dst ∉ B := fun h => hdn (by simp [h])
    have hmap : ∀ l : List ℕ, src ∉ l → dst ∉ l → l.map (Equiv.swap src dst) = l := by
      intro l h1 h2
      conv_rhs => rw [← List.map_id l]
      apply List.map_congr_left
      intro x hx
      exact Equiv.swap_apply_of_ne_of_ne (fun e => h1 (e ▸ hx)) (fun e => h2 (e ▸ hx))
    rw [List.map_append, List.map_cons, hmap A hA hdA, hmap B hB hdB, Equiv.swap_apply_left] at k2
    refine ⟨f', by rw [swapKeys_eq, ht, k1]; rfl, fun _ => ⟨A, B, k2, by rw [k3, h.len, hlen], ?_, ?_, ?_, ?_⟩⟩
    · intro z
      by_cases e1 : z = dst
      · subst e1; simp [hd']
      · by_cases e2 : z = src
        · subst e2
          simp only [List.mem_append, List.mem_cons, hA, hB, e1, or_self, hs', ne_eq, not_true]
        · rw [hes z e2 e1, ← h.mem]
          simp [e1, e2]
    · refine List.Pairwise.imp_of_mem ?_ h1
      intro i j hi hj hij
      have hi1 : i ≠ src := by rintro rfl; simp [hA, hB] at hi
      have hi2 : i ≠ dst := by rintro rfl; simp [hdA, hdB] at hi
      have hj1 : j ≠ src := by rintro rfl; simp [hA, hB] at hj
      have hj2 : j ≠ dst := by rintro rfl; simp [hdA, hdB] at hj
      exact geK_congr (hes i hi1 hi2) (hes j hj1 hj2) hij
    · intro a ha
      exact ⟨h2 a ha, fun e => hA (e ▸ ha), fun e => hdA (e ▸ ha)⟩
    · intro a ha
      exact ⟨h3 a ha, fun e => hB (e ▸ ha), fun e => hdB (e ▸ ha)⟩

end Verif.Geobucket
