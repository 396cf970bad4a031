import Verif.GeoSimMergeProofs
import Verif.GeoInsertProofs

/-!
# Helper lemmas: `addBucket` cuts up the memory without overlaps
-/

namespace Verif.GeoMem

open Geobucket (Conf Storage Front Place Sane)

variable {E : Type} {c : Conf E}

/-- The length of the area of a bucket of capacity `k` if the largest has capacity `n`. -/
def width (c : Conf E) (n k : ℕ) : ℕ := if c.storage = .sameSize then n else k

/-- The length of the other buffer. -/
def owidth (c : Conf E) (k : ℕ) : ℕ := if c.storage = .doubleBuffer then k else 0

/-- The buckets follow each other in the memory, from `o` to `o'`. -/
inductive Packed (c : Conf E) (n : ℕ) : ℕ → List (Bucket E) → ℕ → Prop where
  | nil (o : ℕ) : Packed c n o [] o
  | cons {o o' : ℕ} {b : Bucket E} {bs : List (Bucket E)} (h1 : b.start = o)
      (h2 : b.other = if c.storage = .doubleBuffer then some (o + width c n b.cap) else none)
      (h3 : Packed c n (o + width c n b.cap + owidth c b.cap) bs o') : Packed c n o (b :: bs) o'

theorem Packed.append {n o o' o'' : ℕ} {bs bs' : List (Bucket E)} (h : Packed c n o bs o') (h' : Packed c n o' bs' o'') :
    Packed c n o (bs ++ bs') o'' := by
  induction h with
  | nil o => exact h'
  | cons h1 h2 h3 ih => exact .cons h1 h2 (ih h')

theorem Packed.le {n o o' : ℕ} {bs : List (Bucket E)} (h : Packed c n o bs o') : o ≤ o' := by
  induction h with
  | nil o => exact le_rfl
  | cons h1 h2 h3 ih => omega

theorem Packed.get {n o o' : ℕ} {bs : List (Bucket E)} (h : Packed c n o bs o') : ∀ {i : ℕ} {b : Bucket E},
    bs[i]? = some b → o ≤ b.start ∧ b.start + width c n b.cap + owidth c b.cap ≤ o' ∧
      b.other = if c.storage = .doubleBuffer then some (b.start + width c n b.cap) else none := by
  induction h with
  | nil o => intro i b hb; simp at hb
  | cons h1 h2 h3 ih =>
    intro i b hb
    cases i with
    | zero =>
      have hb : some _ = some b := hb
      cases hb
      have := h3.le
      refine ⟨by omega, by omega, by rw [h1]; exact h2⟩
    | succ i =>
      obtain ⟨k1, k2, k3⟩ := ih (i := i) hb
      exact ⟨by omega, k2, k3⟩

theorem Packed.order {n o o' : ℕ} {bs : List (Bucket E)} (h : Packed c n o bs o') : ∀ {i j : ℕ} {b d : Bucket E},
    i < j → bs[i]? = some b → bs[j]? = some d → b.start + width c n b.cap + owidth c b.cap ≤ d.start := by
  induction h with
  | nil o => intro i j b d _ hb; simp at hb
  | cons h1 h2 h3 ih =>
    intro i j b d hij hb hd
    cases j with
    | zero => omega
    | succ j =>
      have hd : _ = some d := hd
      rw [List.getElem?_cons_succ] at hd
      cases i with
      | zero =>
        have hb : some _ = some b := hb
        cases hb
        have := (h3.get hd).1
        omega
      | succ i => exact ih (by omega) hb hd

/-- The memory that buckets of these capacities take. -/
def total (c : Conf E) (n : ℕ) (caps : List ℕ) : ℕ := (caps.map (fun k => width c n k + owidth c k)).sum

theorem required_eq (caps : List ℕ) (n : ℕ) :
    required c caps n = total c n caps + (n + owidth c n + n + (if c.premerge then 0 else n)) := rfl

theorem slice_congr {m m' : List E} {p n : ℕ} (h : ∀ i, p ≤ i → i < p + n → m[i]? = m'[i]?) :
    slice m p n = slice m' p n := by
  apply List.ext_getElem?
  intro i
  rw [slice_get, slice_get]
  split
  · exact h _ (by omega) (by omega)
  · rfl

theorem moveBuffers_eq (old : List E) (n : ℕ) : ∀ (bs : List (Bucket E)) (o : ℕ) (m : List E),
    (∀ b ∈ bs, b.start + b.size ≤ old.length ∧ b.size ≤ b.cap ∧ b.cap ≤ n ∧
      b.other.isSome = decide (c.storage = .doubleBuffer)) →
    o + total c n (bs.map Bucket.cap) < m.length →
    ∃ m' bs', moveBuffers c old n o m bs = some (m', bs', o + total c n (bs.map Bucket.cap)) ∧
      m'.length = m.length ∧ Packed c n o bs' (o + total c n (bs.map Bucket.cap)) ∧
      bs'.map (Bucket.view m') = bs.map (Bucket.view old) ∧ bs'.map Bucket.cap = bs.map Bucket.cap ∧
      bs'.map Bucket.size = bs.map Bucket.size ∧ ∀ i, i < o → m'[i]? = m[i]? := by
  intro bs
  induction bs with
  | nil =>
    intro o m _ _
    exact ⟨m, [], rfl, rfl, .nil o, rfl, rfl, rfl, fun _ _ => rfl⟩
  | cons b bs ih =>
    intro o m hbs hlen
    obtain ⟨b1, b2, b3, b4⟩ := hbs b List.mem_cons_self
    have hw : b.size ≤ width c n b.cap := by
      rw [width]
      split <;> omega
    have ht : total c n ((b :: bs).map Bucket.cap) =
        width c n b.cap + owidth c b.cap + total c n (bs.map Bucket.cap) := by
      simp [total]
    rw [ht] at hlen ⊢
    have hsl : (slice old b.start b.size).length = b.size := slice_length b1
    have hcp : copy m (.ext (slice old b.start b.size)) o =
        some (put m o (slice old b.start b.size), o + b.size) := by
      rw [copy_eq (a := .ext (slice old b.start b.size)) trivial trivial (by show o + (slice old b.start b.size).length ≤ _; omega)]
      show some (_, o + (slice old b.start b.size).length) = _
      rw [hsl]
      rfl
    obtain ⟨m', bs', k1, k2, k3, k4, k5, k6, k7⟩ := ih (o + width c n b.cap + owidth c b.cap)
      (put m o (slice old b.start b.size)) (fun d hd => hbs d (List.mem_cons_of_mem _ hd))
      (by rw [put_length]; omega)
    have he : o + width c n b.cap + owidth c b.cap + total c n (bs.map Bucket.cap) =
        o + (width c n b.cap + owidth c b.cap + total c n (bs.map Bucket.cap)) := by omega
    rw [he] at k1 k3
    rw [put_length] at k2
    have hs : slice m' o b.size = slice old b.start b.size := by
      rw [slice_congr (m' := put m o (slice old b.start b.size)) (fun i h1 h2 => k7 i (by omega))]
      have := slice_put_self (m := m) (p := o) (l := slice old b.start b.size) (by omega)
      rwa [hsl] at this
    have hlow : ∀ i, i < o → m'[i]? = m[i]? := by
      intro i hi
      rw [k7 i (by omega), put_get _ _ _ (by omega), if_neg (by omega)]
    rw [moveBuffers, if_pos b1, addr, if_pos (by omega)]
    simp only [Option.bind_eq_bind, Option.bind_some, hcp]
    by_cases hd : c.storage = .doubleBuffer
    · have hns : c.storage ≠ .sameSize := by rw [hd]; nofun
      have hw' : width c n b.cap = b.cap := if_neg hns
      have ho' : owidth c b.cap = b.cap := if_pos hd
      have hpos : o + b.cap < m.length := by omega
      rw [if_pos hd, if_neg hns, addr, if_pos (by rw [put_length]; exact hpos)]
      rw [hw', ho'] at k1 ⊢
      simp only [Option.bind_some, k1]
      refine ⟨m', _, rfl, k2, .cons rfl ?_ ?_, ?_, ?_, ?_, hlow⟩
      · simp only [if_pos hd, hw']
      · simp only [hw', ho']
        rw [hw', ho'] at k3
        exact k3
      · rw [List.map_cons, List.map_cons, k4, Bucket.view, Bucket.view]
        simp only [hs]
      · rw [List.map_cons, List.map_cons, k5]
      · rw [List.map_cons, List.map_cons, k6]
    · have ho' : owidth c b.cap = 0 := if_neg hd
      have hnone : b.other = none := by
        have : b.other.isSome = false := by rw [b4]; exact decide_eq_false hd
        simpa using this
      rw [if_neg hd]
      have hww : (if c.storage = .sameSize then n else b.cap) = width c n b.cap := rfl
      rw [ho'] at k1
      rw [hww]
      rw [Nat.add_zero] at k1
      rw [ho'] at k3 ⊢
      simp only [k1, Option.bind_some]
      refine ⟨m', _, rfl, k2, .cons rfl ?_ ?_, ?_, ?_, ?_, hlow⟩
      · simp only [if_neg hd, hnone]
      · simp only [ho']
        exact k3
      · rw [List.map_cons, List.map_cons, k4, Bucket.view, Bucket.view]
        simp only [hs]
      · rw [List.map_cons, List.map_cons, k5]
      · rw [List.map_cons, List.map_cons, k6]

/-- The areas of buckets that follow each other, followed by the temporary areas, are a layout. -/
theorem Packed.layout {s : State E} {o : ℕ} (h : Packed c s.last 0 s.buckets o) (h1 : o ≤ s.tmp)
    (h2 : ∀ t, s.tmp2 = some t → s.tmp + s.last ≤ t ∧ t + s.last ≤ s.mem.length) (h3 : s.tmp + s.last ≤ s.mem.length)
    (hfits : ∀ b ∈ s.buckets, b.size ≤ b.cap) (hcaps : ∀ b ∈ s.buckets, 0 < b.cap ∧ b.cap ≤ s.last)
    (htmp2 : s.tmp2.isSome = !c.premerge) : Layout c s := by
  have hmain : ∀ i r, s.area c (.main i) = some r → ∃ b, s.buckets[i]? = some b ∧ r = (b.start, width c s.last b.cap) := by
    intro i r hr
    obtain ⟨b, hb, e⟩ := Option.map_eq_some_iff.mp hr
    exact ⟨b, hb, e.symm⟩
  have hoth : ∀ i r, s.area c (.other i) = some r → ∃ b, s.buckets[i]? = some b ∧ c.storage = .doubleBuffer ∧
      r = (b.start + width c s.last b.cap, b.cap) := by
    intro i r hr
    obtain ⟨b, hb, e⟩ := Option.bind_eq_some_iff.mp hr
    obtain ⟨p, hp, e⟩ := Option.map_eq_some_iff.mp e
    have := (h.get hb).2.2
    rw [this] at hp
    split at hp
    · rename_i hd
      cases hp
      exact ⟨b, hb, hd, e.symm⟩
    · cases hp
  have htmp : ∀ r, s.area c .tmp = some r → r = (s.tmp, s.last) := by
    intro r hr
    cases hr
    rfl
  have ht2 : ∀ r, s.area c .tmp2 = some r → s.tmp2 = some r.1 ∧ r.2 = s.last := by
    intro r hr
    obtain ⟨t, ht, rfl⟩ := Option.map_eq_some_iff.mp hr
    exact ⟨ht, rfl⟩
  have how : c.storage = .doubleBuffer → ∀ k, owidth c k = k := fun hd k => if_pos hd
  -- each area, as an interval with a number
  let rank : Id → ℕ
    | .main i => 2 * i
    | .other i => 2 * i + 1
    | .tmp => 2 * s.buckets.length
    | .tmp2 => 2 * s.buckets.length + 1
  have hlt : ∀ {i : ℕ} {b : Bucket E}, s.buckets[i]? = some b → i < s.buckets.length :=
    fun hb => (List.getElem?_eq_some_iff.mp hb).1
  have key : ∀ id id' r r', rank id < rank id' → s.area c id = some r → s.area c id' = some r' → r.1 + r.2 ≤ r'.1 := by
    intro id id' r r' hr ha ha'
    cases id with
    | main i =>
      obtain ⟨b, hb, rfl⟩ := hmain _ _ ha
      have g := h.get hb
      have hi := hlt hb
      cases id' with
      | main j =>
        obtain ⟨d, hd, rfl⟩ := hmain _ _ ha'
        have := h.order (show i < j by simp only [rank] at hr; omega) hb hd
        simp only
        omega
      | other j =>
        obtain ⟨d, hd, hdb, rfl⟩ := hoth _ _ ha'
        simp only
        by_cases e : i = j
        · subst e
          rw [hb] at hd
          cases hd
          omega
        · have := h.order (show i < j by simp only [rank] at hr; omega) hb hd
          omega
      | tmp =>
        rw [htmp _ ha']
        simp only
        omega
      | tmp2 =>
        obtain ⟨e1, e2⟩ := ht2 _ ha'
        have := h2 _ e1
        simp only
        omega
    | other i =>
      obtain ⟨b, hb, hdb, rfl⟩ := hoth _ _ ha
      have g := h.get hb
      have hi := hlt hb
      have hw := how hdb b.cap
      rw [hw] at g
      cases id' with
      | main j =>
        obtain ⟨d, hd, rfl⟩ := hmain _ _ ha'
        have := h.order (show i < j by simp only [rank] at hr; omega) hb hd
        rw [hw] at this
        simp only
        omega
      | other j =>
        obtain ⟨d, hd, _, rfl⟩ := hoth _ _ ha'
        have := h.order (show i < j by simp only [rank] at hr; omega) hb hd
        rw [hw] at this
        simp only
        omega
      | tmp =>
        rw [htmp _ ha']
        simp only
        omega
      | tmp2 =>
        obtain ⟨e1, e2⟩ := ht2 _ ha'
        have := h2 _ e1
        simp only
        omega
    | tmp =>
      rw [htmp _ ha]
      cases id' with
      | main j =>
        obtain ⟨d, hd, rfl⟩ := hmain _ _ ha'
        have := hlt hd
        simp only [rank] at hr
        omega
      | other j =>
        obtain ⟨d, hd, _, rfl⟩ := hoth _ _ ha'
        have := hlt hd
        simp only [rank] at hr
        omega
      | tmp => simp only [rank] at hr; omega
      | tmp2 =>
        obtain ⟨e1, e2⟩ := ht2 _ ha'
        have := h2 _ e1
        simp only
        omega
    | tmp2 =>
      cases id' with
      | main j =>
        obtain ⟨d, hd, rfl⟩ := hmain _ _ ha'
        have := hlt hd
        simp only [rank] at hr
        omega
      | other j =>
        obtain ⟨d, hd, _, rfl⟩ := hoth _ _ ha'
        have := hlt hd
        simp only [rank] at hr
        omega
      | tmp => simp only [rank] at hr; omega
      | tmp2 => simp only [rank] at hr; omega
  refine ⟨?_, ?_, hfits, hcaps, ?_, htmp2⟩
  · intro id r ha
    cases id with
    | main i =>
      obtain ⟨b, hb, rfl⟩ := hmain _ _ ha
      have g := h.get hb
      simp only
      omega
    | other i =>
      obtain ⟨b, hb, hdb, rfl⟩ := hoth _ _ ha
      have g := h.get hb
      rw [how hdb b.cap] at g
      simp only
      omega
    | tmp =>
      rw [htmp _ ha]
      exact h3
    | tmp2 =>
      obtain ⟨e1, e2⟩ := ht2 _ ha
      rw [e2]
      exact (h2 _ e1).2
  · intro id id' r r' hne ha ha'
    rcases Nat.lt_trichotomy (rank id) (rank id') with hr | hr | hr
    · exact Or.inl (key _ _ _ _ hr ha ha')
    · exfalso
      cases id <;> cases id' <;> simp only [rank] at hr <;>
        first
        | exact hne (by congr 1; omega)
        | omega
        | (obtain ⟨b, hb, _⟩ := hmain _ _ ha
           have := hlt hb
           omega)
        | (obtain ⟨b, hb, _⟩ := hmain _ _ ha'
           have := hlt hb
           omega)
        | (obtain ⟨b, hb, _⟩ := hoth _ _ ha
           have := hlt hb
           omega)
        | (obtain ⟨b, hb, _⟩ := hoth _ _ ha'
           have := hlt hb
           omega)
        | exact hne rfl
    · exact Or.inr (key _ _ _ _ hr ha' ha)
  · intro b hb
    obtain ⟨i, hi⟩ := List.getElem?_of_mem hb
    rw [(h.get hi).2.2]
    split
    · rename_i hd
      rw [hd]
      rfl
    · rename_i hd
      rw [decide_eq_false hd]
      rfl

theorem total_mono {n n' : ℕ} (h : n ≤ n') (caps : List ℕ) : total c n caps ≤ total c n' caps := by
  rw [total, total]
  induction caps with
  | nil => exact le_rfl
  | cons k l ih =>
    simp only [List.map_cons, List.sum_cons]
    have : width c n k ≤ width c n' k := by
      rw [width, width]
      split <;> omega
    omega

theorem required_mono {l : List ℕ} {k n : ℕ} (h : k ≤ n) : required c l k ≤ required c (l ++ [k]) n := by
  have h1 := total_mono (c := c) h l
  have h2 : total c n (l ++ [k]) = total c n l + (width c n k + owidth c k) := by
    simp [total]
  have h3 : k ≤ width c n k := by
    rw [width]
    split <;> omega
  rw [required_eq, required_eq, h2]
  have h5 : (if c.premerge then 0 else k) ≤ (if c.premerge then 0 else n) := by
    split <;> omega
  omega

/-- The capacity of the next bucket. -/
def nextCap (c : Conf E) (last : Option ℕ) : ℕ := last.elim c.minBucketSize (· * c.geoBase)

/-- `addBucket` where the next capacity is known. -/
def addWith (c : Conf E) (dflt : E) (s : State E) (n : ℕ) : Option (State E) := do
  let req := required c (s.buckets.map Bucket.cap) n
  if s.mem.length ≤ req then
    let m := s.mem ++ List.replicate (req - s.mem.length) dflt
    let (m, bs, offset) ← moveBuffers c s.mem n 0 m s.buckets
    let buffer ← addr m offset
    let offset := offset + n
    let other ← (if c.storage = .doubleBuffer then (addr m offset).map some else some none)
    let offset := if c.storage = .doubleBuffer then offset + n else offset
    let bs := bs ++ [⟨buffer, other, 0, n, none⟩]
    let f := { s.front with pos := s.front.pos ++ [.null] }
    let f ← (if c.trackFront then Geobucket.reserveCapacity f bs.length
      else some { f with cached := none })
    let tmp ← addr m offset
    let offset := offset + n
    let tmp2 ← (if c.premerge then some none else (addr m offset).map some)
    some { mem := m, buckets := bs, tmp := tmp, tmp2 := tmp2, count := s.count, front := f }
  else none

/-- The list-level `addBucket` where the next capacity is known. -/
def addWith' (c : Conf E) (s : Geobucket.State E) (cap : ℕ) : Option (Geobucket.State E) :=
  let bs := s.buckets ++ [⟨cap, [], none⟩]
  let f := { s.front with pos := s.front.pos ++ [.null] }
  if c.trackFront then
    (Geobucket.reserveCapacity f bs.length).map (fun f => { s with buckets := bs, front := f })
  else some { s with buckets := bs, front := { f with cached := none } }

theorem addBucket_eq (dflt : E) (s : State E) :
    addBucket c dflt s = addWith c dflt s (nextCap c (s.buckets.getLast?.map Bucket.cap)) := by
  rw [addBucket]
  cases s.buckets.getLast? <;> rfl

theorem addBucket_eq' (s : Geobucket.State E) :
    Geobucket.addBucket c s = addWith' c s (nextCap c (s.buckets.getLast?.map Geobucket.Bucket.cap)) := by
  rw [Geobucket.addBucket]
  cases s.buckets.getLast? <;> rfl

theorem addBucket_core {dflt : E} {s : State E} {n : ℕ}
    (hn : nextCap c (s.buckets.getLast?.map Bucket.cap) = n)
    (hbs : ∀ b ∈ s.buckets, b.start + b.size ≤ s.mem.length ∧ b.size ≤ b.cap ∧ b.cap ≤ n ∧
      b.other.isSome = decide (c.storage = .doubleBuffer))
    (hpos : ∀ b ∈ s.buckets, 0 < b.cap)
    (hreq : s.mem.length ≤ required c (s.buckets.map Bucket.cap) n) (h0 : 0 < n) :
    SimR (Sim c) (addBucket c dflt s) (Geobucket.addBucket c s.view) := by
  have hcap : nextCap c (s.view.buckets.getLast?.map Geobucket.Bucket.cap) = n := by
    rw [← hn]
    simp only [State.view, List.getLast?_map, Option.map_map]
    rfl
  rw [addBucket_eq, addBucket_eq', hcap, hn, addWith, addWith']
  simp only
  rw [if_pos hreq]
  have hlen : (s.mem ++ List.replicate (required c (s.buckets.map Bucket.cap) n - s.mem.length) dflt).length =
      required c (s.buckets.map Bucket.cap) n := by
    rw [List.length_append, List.length_replicate]
    omega
  obtain ⟨m', bs', k1, k2, k3, k4, k5, k6, _⟩ := moveBuffers_eq (c := c) s.mem n s.buckets 0 _ hbs
    (by rw [hlen, required_eq]; omega)
  rw [hlen] at k2
  rw [Nat.zero_add] at k1 k3
  rw [required_eq] at k2
  have hbl : bs'.length = s.buckets.length := by
    have := congrArg List.length k5
    simpa using this
  have hvb : ∀ b : Bucket E, b.size = 0 → (bs' ++ [b]).map (Bucket.view m') = s.view.buckets ++ [⟨b.cap, [], b.back⟩] := by
    intro b hb
    rw [List.map_append, k4]
    simp only [State.view, List.map_cons, List.map_nil, Bucket.view, hb, slice_zero]
  have hcapn : ∀ b ∈ bs', 0 < b.cap ∧ b.cap ≤ n := by
    intro b hb
    have : b.cap ∈ s.buckets.map Bucket.cap := by
      rw [← k5]
      exact List.mem_map_of_mem hb
    obtain ⟨d, hd, e⟩ := List.mem_map.mp this
    rw [← e]
    exact ⟨hpos d hd, (hbs d hd).2.2.1⟩
  have hfit : ∀ b ∈ bs', b.size ≤ b.cap := by
    intro b hb
    have hv : b.view m' ∈ s.buckets.map (Bucket.view s.mem) := by
      rw [← k4]
      exact List.mem_map_of_mem hb
    obtain ⟨i, hi⟩ := List.getElem?_of_mem hb
    have e1 : (s.buckets.map Bucket.size)[i]? = some b.size := by
      rw [← k6, List.getElem?_map, hi]
      rfl
    have e2 : (s.buckets.map Bucket.cap)[i]? = some b.cap := by
      rw [← k5, List.getElem?_map, hi]
      rfl
    rw [List.getElem?_map] at e1 e2
    obtain ⟨d, hd, e⟩ := Option.map_eq_some_iff.mp e1
    rw [hd] at e2
    have e2 : d.cap = b.cap := Option.some.inj e2
    rw [← e, ← e2]
    exact (hbs d (List.mem_of_getElem? hd)).2.1
  have hfinal : ∀ (other tmp2 : Option ℕ) (f : Front),
      other = (if c.storage = .doubleBuffer then some (total c n (s.buckets.map Bucket.cap) + n) else none) →
      tmp2 = (if c.premerge then none else some (total c n (s.buckets.map Bucket.cap) + n + owidth c n + n)) →
      Sim c { mem := m', buckets := bs' ++ [⟨total c n (s.buckets.map Bucket.cap), other, 0, n, none⟩], tmp := total c n (s.buckets.map Bucket.cap) + n + owidth c n, tmp2 := tmp2, count := s.count, front := f }
        ⟨s.view.buckets ++ [⟨n, [], none⟩], s.count, f⟩ := by
    intro other tmp2 f ho ht
    have hlast : ∀ (b : Bucket E) (x y : ℕ) (z : Option ℕ) (k : ℕ), State.last ⟨m', bs' ++ [b], y, z, k, f⟩ = b.cap := by
      intro b x y z k
      simp [State.last]
    refine ⟨?_, ?_, ?_, ?_⟩
    · simp only [State.view]
      rw [hvb _ rfl]
      rfl
    · refine Packed.layout (o := total c n (s.buckets.map Bucket.cap) + n + owidth c n) ?_ le_rfl ?_ ?_ ?_ ?_ ?_
      · rw [hlast _ 0]
        refine k3.append (.cons rfl ?_ ?_)
        · rw [ho]
          simp only [width, ite_self]
        · simp only [width, ite_self]
          exact .nil _
      · rw [hlast _ 0]
        intro t ht'
        simp only at ht'
        rw [ht] at ht'
        split at ht'
        · cases ht'
        · rename_i hp
          cases ht'
          rw [k2, if_neg hp]
          refine ⟨le_rfl, ?_⟩
          show total c n (s.buckets.map Bucket.cap) + n + owidth c n + n + n ≤ _
          omega
      · rw [hlast _ 0]
        show total c n (s.buckets.map Bucket.cap) + n + owidth c n + n ≤ m'.length
        omega
      · intro b hb
        rcases List.mem_append.mp hb with hb | hb
        · exact hfit b hb
        · rw [List.mem_singleton.mp hb]
          exact Nat.zero_le _
      · rw [hlast _ 0]
        intro b hb
        rcases List.mem_append.mp hb with hb | hb
        · exact hcapn b hb
        · rw [List.mem_singleton.mp hb]
          exact ⟨h0, le_rfl⟩
      · rw [ht]
        cases c.premerge <;> rfl
    · simp
    · rw [hlast _ 0, k2]
      simp only [List.map_append, List.map_cons, List.map_nil, List.dropLast_concat, k5]
      rfl
  simp only [Option.bind_eq_bind, k1, Option.bind_some]
  have hd : ∀ x, x < m'.length → addr m' x = some x := fun x hx => by rw [addr, if_pos hx]
  rw [hd _ (by omega)]
  simp only [Option.bind_some]
  have hoff : (if c.storage = .doubleBuffer then total c n (s.buckets.map Bucket.cap) + n + n else
      total c n (s.buckets.map Bucket.cap) + n) = total c n (s.buckets.map Bucket.cap) + n + owidth c n := by
    rw [owidth]
    split <;> rfl
  have hother : (if c.storage = .doubleBuffer then (addr m' (total c n (s.buckets.map Bucket.cap) + n)).map some else some none) =
      some (if c.storage = .doubleBuffer then some (total c n (s.buckets.map Bucket.cap) + n) else none) := by
    split
    · rw [hd _ (by omega)]
      rfl
    · rfl
  have htmp2 : (if c.premerge then some none else (addr m' (total c n (s.buckets.map Bucket.cap) + n + owidth c n + n)).map some) =
      some (if c.premerge then none else some (total c n (s.buckets.map Bucket.cap) + n + owidth c n + n)) := by
    split
    · rfl
    · rename_i hp
      rw [if_neg hp] at k2
      rw [hd _ (by omega)]
      rfl
  rw [hother]
  simp only [Option.bind_some, hoff, List.length_append, hbl, List.length_cons, List.length_nil]
  rw [hd _ (by omega)]
  simp only [Option.bind_some]
  rw [htmp2]
  have hvl : s.view.buckets.length = s.buckets.length := view_length s
  by_cases htf : c.trackFront
  · rw [if_pos htf, if_pos htf, hvl]
    have hf : s.view.front = s.front := rfl
    rw [hf]
    cases hr : Geobucket.reserveCapacity { s.front with pos := s.front.pos ++ [.null] } (s.buckets.length + (0 + 1)) with
    | none => exact SimR.undef
    | some f => exact .ret (hfinal _ _ f rfl rfl)
  · rw [if_neg htf, if_neg htf]
    exact .ret (hfinal _ _ _ rfl rfl)

theorem addBucket_sim (hs : Sane c) {dflt : E} {s : State E} {t : Geobucket.State E} (h : Sim c s t) :
    SimR (Sim c) (addBucket c dflt s) (Geobucket.addBucket c t) := by
  obtain ⟨rfl, h⟩ := h
  obtain ⟨l, b, hb⟩ : ∃ l b, s.buckets = l ++ [b] := by
    obtain hb | ⟨l, b, hb⟩ := List.eq_nil_or_concat s.buckets
    · exact absurd hb h.ne
    · exact ⟨l, b, by rw [hb, List.concat_eq_append]⟩
  have hlast : s.last = b.cap := by
    rw [State.last, hb]
    simp
  have hle : b.cap ≤ b.cap * c.geoBase := Nat.le_mul_of_pos_right _ (by have := hs.base; omega)
  refine addBucket_core (n := b.cap * c.geoBase) ?_ ?_ ?_ ?_ ?_
  · rw [hb]
    simp [nextCap]
  · intro d hd
    obtain ⟨i, hi⟩ := List.getElem?_of_mem hd
    refine ⟨h.bound hi, h.fits d hd, ?_, h.double d hd⟩
    have := (h.caps d hd).2
    omega
  · intro d hd
    exact (h.caps d hd).1
  · rw [h.len, hlast, hb]
    simp only [List.map_append, List.map_cons, List.map_nil, List.dropLast_concat]
    exact required_mono hle
  · have := (h.caps b (by rw [hb]; simp)).1
    omega

theorem mk_sim (hs : Sane c) (dflt : E) : SimR (Sim c) (mk c dflt) (Geobucket.mk c) :=
  addBucket_core (s := ⟨[], [], 0, none, 0, ⟨none, [], 0, []⟩⟩) (n := c.minBucketSize) rfl (by simp) (by simp)
    (Nat.zero_le _) (by have := hs.min; omega)

end Verif.GeoMem
