import Verif.GeoMemProofs
import Verif.GeoDataProofs

/-!
# Helper lemmas: the areas of a geobucket, and the operations on single buckets
-/

namespace Verif.GeoMem

open Geobucket (Conf Storage Front Place)

variable {E : Type} {c : Conf E}

/-! ## The invariant -/

/-- The layout with the size of the memory. -/
structure Ok (c : Conf E) (s : State E) : Prop extends Layout c s where
  ne : s.buckets ≠ []
  len : s.mem.length = required c (s.buckets.map Bucket.cap).dropLast s.last

theorem last_eq (s : State E) : s.last = ((s.buckets.map Bucket.cap).getLast?).getD 0 := by
  rw [State.last, List.getLast?_map]
  cases s.buckets.getLast? <;> rfl

theorem last_congr {s s' : State E} (h : s'.buckets.map Bucket.cap = s.buckets.map Bucket.cap) : s'.last = s.last := by
  rw [last_eq, last_eq, h]

theorem area_main {s : State E} {i : ℕ} {b : Bucket E} (h : s.buckets[i]? = some b) :
    s.area c (.main i) = some (b.start, if c.storage = .sameSize then s.last else b.cap) := by
  rw [State.area, h]
  rfl

theorem area_other {s : State E} {i o : ℕ} {b : Bucket E} (h : s.buckets[i]? = some b) (ho : b.other = some o) :
    s.area c (.other i) = some (o, b.cap) := by
  rw [State.area, h, Option.bind_some, ho]
  rfl

theorem view_get (s : State E) (i : ℕ) : s.view.buckets[i]? = (s.buckets[i]?).map (Bucket.view s.mem) := by
  rw [State.view, List.getElem?_map]

theorem view_get_some {s : State E} {i : ℕ} {b : Bucket E} (h : s.buckets[i]? = some b) :
    s.view.buckets[i]? = some (b.view s.mem) := by
  rw [view_get, h]
  rfl

theorem view_length (s : State E) : s.view.buckets.length = s.buckets.length := by
  rw [State.view, List.length_map]

theorem view_tmpCap (s : State E) : Geobucket.tmpCap s.view = s.last := by
  rw [Geobucket.tmpCap, State.last, State.view, List.getLast?_map]
  cases s.buckets.getLast? <;> rfl

namespace Ok

variable {s : State E}

theorem room (h : Ok c s) {i : ℕ} {b : Bucket E} (hb : s.buckets[i]? = some b) :
    b.size ≤ (if c.storage = .sameSize then s.last else b.cap) := by
  have hm := List.mem_of_getElem? hb
  have h1 := h.fits b hm
  have h2 := (h.caps b hm).2
  split <;> omega

theorem cap_room (h : Ok c s) {i : ℕ} {b : Bucket E} (hb : s.buckets[i]? = some b) :
    b.cap ≤ (if c.storage = .sameSize then s.last else b.cap) := by
  have hm := List.mem_of_getElem? hb
  have h2 := (h.caps b hm).2
  split <;> omega

theorem bound (h : Ok c s) {i : ℕ} {b : Bucket E} (hb : s.buckets[i]? = some b) : b.start + b.size ≤ s.mem.length := by
  have h1 := h.inside _ _ (area_main hb)
  have h2 := h.room hb
  simp only at h1
  omega

theorem bound_cap (h : Ok c s) {i : ℕ} {b : Bucket E} (hb : s.buckets[i]? = some b) :
    b.start + b.cap ≤ s.mem.length := by
  have h1 := h.inside _ _ (area_main hb)
  have h2 := h.cap_room hb
  simp only at h1
  omega

theorem es_length (h : Ok c s) {i : ℕ} {b : Bucket E} (hb : s.buckets[i]? = some b) :
    (b.view s.mem).es.length = b.size := slice_length (h.bound hb)

theorem es_nil (h : Ok c s) {i : ℕ} {b : Bucket E} (hb : s.buckets[i]? = some b) :
    (b.view s.mem).es = [] ↔ b.size = 0 := by
  rw [← List.length_eq_zero_iff, h.es_length hb]

/-- A change that renames the areas. -/
theorem rename (h : Ok c s) {s' : State E} (σ : Id → Id) (hσ : Function.Injective σ)
    (harea : ∀ id, s'.area c id = s.area c (σ id)) (hmem : s'.mem.length = s.mem.length)
    (hcaps : s'.buckets.map Bucket.cap = s.buckets.map Bucket.cap) (hfits : ∀ b ∈ s'.buckets, b.size ≤ b.cap)
    (hdouble : ∀ b ∈ s'.buckets, b.other.isSome = decide (c.storage = .doubleBuffer))
    (htmp2 : s'.tmp2.isSome = !c.premerge) : Ok c s' where
  inside := by
    intro id r hr
    rw [harea] at hr
    rw [hmem]
    exact h.inside _ _ hr
  apart := by
    intro id id' r r' hne hr hr'
    rw [harea] at hr hr'
    exact h.apart _ _ r r' (fun e => hne (hσ e)) hr hr'
  fits := hfits
  caps := by
    have hl := last_congr hcaps
    have h1 : ∀ k ∈ s'.buckets.map Bucket.cap, 0 < k ∧ k ≤ s'.last := by
      rw [hcaps, hl]
      intro k hk
      obtain ⟨b, hb, rfl⟩ := List.mem_map.mp hk
      exact h.caps b hb
    intro b hb
    exact h1 _ (List.mem_map_of_mem hb)
  double := hdouble
  tmp2 := htmp2
  ne := by
    intro e
    apply h.ne
    have := congrArg List.length hcaps
    rw [e] at this
    simpa using this.symm
  len := by rw [hmem, hcaps, last_congr hcaps, h.len]

theorem other_front (h : Ok c s) (f : Front) (n : ℕ) : Ok c { s with front := f, count := n } :=
  h.rename id Function.injective_id (fun _ => rfl) rfl rfl h.fits h.double h.tmp2

theorem map_cap_set {bs : List (Bucket E)} {i : ℕ} {b b' : Bucket E} (hb : bs[i]? = some b) (hc : b'.cap = b.cap) :
    (bs.set i b').map Bucket.cap = bs.map Bucket.cap := by
  apply List.ext_getElem?
  intro j
  rw [List.getElem?_map, List.getElem?_map, List.getElem?_set]
  split
  · rename_i e
    subst e
    rw [hb]
    have : i < bs.length := (List.getElem?_eq_some_iff.mp hb).1
    rw [if_pos this]
    simp [hc]
  · rfl

theorem get_set {bs : List (Bucket E)} {i : ℕ} {b : Bucket E} (b' : Bucket E) (hb : bs[i]? = some b) (j : ℕ) :
    (bs.set i b')[j]? = if j = i then some b' else bs[j]? := by
  rw [List.getElem?_set]
  split
  · rename_i e
    rw [if_pos e.symm]
    rw [if_pos (List.getElem?_eq_some_iff.mp hb).1]
  · rename_i e
    rw [if_neg (fun h => e h.symm)]

/-- A change of one bucket that keeps its areas. -/
theorem upd (h : Ok c s) {i : ℕ} {b b' : Bucket E} (hb : s.buckets[i]? = some b) (h1 : b'.start = b.start)
    (h2 : b'.other = b.other) (h3 : b'.cap = b.cap) (h4 : b'.size ≤ b'.cap) {m : List E}
    (hm : m.length = s.mem.length) (n : ℕ) (f : Front) :
    Ok c { s with mem := m, buckets := s.buckets.set i b', count := n, front := f } := by
  have hcaps := map_cap_set (b' := b') hb h3
  refine h.rename id Function.injective_id ?_ hm hcaps ?_ ?_ h.tmp2
  · intro id'
    have hl := last_congr (s := s) (s' := { s with mem := m, buckets := s.buckets.set i b', count := n, front := f }) hcaps
    cases id' with
    | main j =>
      simp only [State.area, hl, get_set b' hb j, id]
      by_cases e : j = i
      · subst e
        simp [hb, h1, h3]
      · rw [if_neg e]
    | other j =>
      simp only [State.area, get_set b' hb j, id]
      by_cases e : j = i
      · subst e
        simp [hb, h2, h3]
      · rw [if_neg e]
    | tmp => simp only [State.area, hl, id]
    | tmp2 => simp only [State.area, hl, id]
  · intro x hx
    rcases List.mem_or_eq_of_mem_set hx with hx | rfl
    · exact h.fits x hx
    · exact h4
  · intro x hx
    rcases List.mem_or_eq_of_mem_set hx with hx | rfl
    · exact h.double x hx
    · rw [h2]
      exact h.double b (List.mem_of_getElem? hb)

/-- Writing into an area leaves the buckets in other areas alone. -/
theorem keep (h : Ok c s) {id : Id} {p len q : ℕ} {l : List E} (ha : s.area c id = some (p, len)) (h1 : p ≤ q)
    (h2 : q + l.length ≤ p + len) {j : ℕ} (hid : id ≠ .main j) {b : Bucket E} (hb : s.buckets[j]? = some b) :
    slice (put s.mem q l) b.start b.size = slice s.mem b.start b.size := by
  have h3 := h.inside _ _ ha
  simp only at h3
  apply slice_put_ne (by omega)
  intro i h4 h5
  have h6 := h.apart _ _ _ _ hid ha (area_main hb)
  have h7 := h.room hb
  simp only at h6
  omega

end Ok

/-- The view after a change of one bucket. -/
theorem view_set {s : State E} {i : ℕ} {b b' : Bucket E} {v : Geobucket.Bucket E} {m : List E}
    (hb : s.buckets[i]? = some b)
    (hk : ∀ (j : ℕ) (bj : Bucket E), j ≠ i → s.buckets[j]? = some bj → slice m bj.start bj.size = slice s.mem bj.start bj.size)
    (hv : b'.view m = v) :
    (s.buckets.set i b').map (Bucket.view m) = (s.buckets.map (Bucket.view s.mem)).set i v := by
  apply List.ext_getElem?
  intro j
  rw [List.getElem?_map, Ok.get_set b' hb, List.getElem?_set]
  by_cases hj : j = i
  · subst hj
    rw [if_pos rfl, if_pos rfl, if_pos (by rw [List.length_map]; exact (List.getElem?_eq_some_iff.mp hb).1), ← hv]
    rfl
  · rw [if_neg hj, if_neg (fun e => hj e.symm), List.getElem?_map]
    cases hbj : s.buckets[j]? with
    | none => rfl
    | some bj =>
      rw [Option.map_some, Option.map_some, Bucket.view, Bucket.view, hk j bj hj hbj]

theorem view_keep {s : State E} {m : List E}
    (hk : ∀ (j : ℕ) (bj : Bucket E), s.buckets[j]? = some bj → slice m bj.start bj.size = slice s.mem bj.start bj.size) :
    s.buckets.map (Bucket.view m) = s.buckets.map (Bucket.view s.mem) := by
  apply List.map_congr_left
  intro b hb
  obtain ⟨j, hj⟩ := List.getElem?_of_mem hb
  rw [Bucket.view, Bucket.view, hk j b hj]

/-! ## Ranges in areas -/

/-- The range is one of the caller's, or at the beginning of an area. -/
def Lies (c : Conf E) (s : State E) (a : Src E) : Option Id → Prop
  | none => ∃ l, a = .ext l
  | some id => ∃ p len n, s.area c id = some (p, len) ∧ a = .mem p n ∧ n ≤ len

theorem Lies.clear {s : State E} (h : Ok c s) {a : Src E} {o : Option Id} (hl : Lies c s a o) {id : Id}
    (hne : o ≠ some id) {p len lo hi : ℕ} (ha : s.area c id = some (p, len)) (h1 : p ≤ lo) (h2 : hi ≤ p + len) :
    a.Clear lo hi := by
  cases o with
  | none =>
    obtain ⟨l, rfl⟩ := hl
    trivial
  | some id' =>
    obtain ⟨q, k, n, e1, rfl, e2⟩ := hl
    intro i h3 h4
    have := h.apart _ _ _ _ (fun e => hne (congrArg some e)) e1 ha
    simp only at this
    omega

theorem Lies.inMem {s : State E} (h : Ok c s) {a : Src E} {o : Option Id} (hl : Lies c s a o) : a.In s.mem := by
  cases o with
  | none =>
    obtain ⟨l, rfl⟩ := hl
    trivial
  | some id' =>
    obtain ⟨q, k, n, e1, rfl, e2⟩ := hl
    have := h.inside _ _ e1
    show q + n ≤ s.mem.length
    simp only at this
    omega

theorem lies_ext {s : State E} (l : List E) : Lies c s (.ext l) none := ⟨l, rfl⟩

theorem Ok.lies_src {s : State E} (h : Ok c s) {i : ℕ} {b : Bucket E} (hb : s.buckets[i]? = some b) :
    Lies c s b.src (some (.main i)) := ⟨_, _, _, area_main hb, rfl, h.room hb⟩

/-! ## Operations on buckets -/

theorem getBack_eq {m : List E} {b : Bucket E} (h : b.start + b.size ≤ m.length) :
    b.getBack c m = (b.view m).getBack c := by
  have hl : (slice m b.start b.size).length = b.size := slice_length h
  rw [Bucket.getBack, Geobucket.Bucket.getBack]
  by_cases h0 : b.size = 0
  · rw [if_pos h0, if_pos]
    show slice m b.start b.size = []
    rw [h0, slice_zero]
  · have hne : (b.view m).es ≠ [] := by
      intro e
      have e : slice m b.start b.size = [] := e
      rw [e] at hl
      exact h0 hl.symm
    rw [if_neg h0, if_neg hne]
    split
    · rfl
    · exact (slice_last h (by omega)).symm

theorem setBack_eq {m : List E} {b : Bucket E} (h : b.start + b.size ≤ m.length) :
    b.setBack m = some { b with back := if b.size > 0 then (slice m b.start b.size).getLast? else b.back } := by
  rw [Bucket.setBack]
  split
  · rename_i h0
    rw [slice_last h h0, List.getElem?_eq_getElem (by omega)]
    rfl
  · rfl

/-- A bucket that has been given new entries. -/
theorem fill_view {m m' : List E} {b : Bucket E} {v : Geobucket.Bucket E} {l : List E} {p : ℕ} {o : Option ℕ}
    (hf : (b.view m).fill l = some v) (hs : slice m' p l.length = l) :
    Bucket.view m' ⟨p, o, l.length, b.cap, if l.length > 0 then l.getLast? else b.back⟩ = v := by
  rw [Geobucket.Bucket.fill] at hf
  split at hf
  · cases hf
    rw [Bucket.view, hs]
    rfl
  · cases hf

theorem fill_le {m : List E} {b : Bucket E} {v : Geobucket.Bucket E} {l : List E}
    (hf : (b.view m).fill l = some v) : l.length ≤ b.cap := by
  rw [Geobucket.Bucket.fill] at hf
  split at hf
  · assumption
  · cases hf

theorem popBack_eq {m : List E} {b : Bucket E} {v : Geobucket.Bucket E} (h : b.start + b.size ≤ m.length)
    (hp : (b.view m).popBack c = some v) :
    ∃ b', b.popBack c m = some b' ∧ b'.view m = v ∧ b'.start = b.start ∧ b'.other = b.other ∧ b'.cap = b.cap ∧
      b'.size ≤ b.size := by
  have hl : (slice m b.start b.size).length = b.size := slice_length h
  rw [Geobucket.Bucket.popBack] at hp
  split at hp
  · cases hp
  · rename_i h0
    have h0 : b.size ≠ 0 := by
      intro e
      apply h0
      show slice m b.start b.size = []
      rw [e, slice_zero]
    cases hp
    have hd : (slice m b.start b.size).dropLast = slice m b.start (b.size - 1) := by
      apply List.ext_getElem?
      intro i
      rw [List.getElem?_dropLast, hl, slice_get, slice_get]
      split
      · rw [if_pos (by omega)]
      · rfl
    rw [Bucket.popBack, if_neg h0]
    simp only [Bucket.view, hd, slice_length (show b.start + (b.size - 1) ≤ m.length by omega)]
    by_cases hc : c.collectMax = true
    · rw [if_pos hc, setBack_eq (by simp only; omega)]
      refine ⟨_, rfl, ?_, rfl, rfl, rfl, by simp⟩
      simp [hc]
    · rw [if_neg hc]
      refine ⟨_, rfl, ?_, rfl, rfl, rfl, by simp⟩
      simp [hc]

theorem setEntry_eq {m : List E} {b : Bucket E} {i : ℕ} {e : E} {v : Geobucket.Bucket E}
    (h : b.start + b.size ≤ m.length) (hp : (b.view m).setEntry c i e = some v) :
    ∃ b', b.setEntry c m i e = some (put m (b.start + i) [e], b') ∧ b'.view (put m (b.start + i) [e]) = v ∧
      b'.start = b.start ∧ b'.other = b.other ∧ b'.cap = b.cap ∧ b'.size = b.size ∧ i < b.size := by
  have hl : (slice m b.start b.size).length = b.size := slice_length h
  rw [Geobucket.Bucket.setEntry] at hp
  simp only [Bucket.view, hl] at hp
  split at hp
  · rename_i hi
    cases hp
    rw [Bucket.setEntry, if_pos hi, wr_eq (by omega)]
    have hs : slice (put m (b.start + i) [e]) b.start b.size = (slice m b.start b.size).set i e := by
      apply List.ext_getElem?
      intro j
      rw [slice_get, put_get [e] m _ (by simp only [List.length_singleton]; omega), List.getElem?_set, hl, slice_get]
      simp only [List.length_singleton]
      by_cases hj : j < b.size
      · rw [if_pos hj]
        by_cases hij : i = j
        · subst hij
          rw [if_pos ⟨le_rfl, by omega⟩, if_pos rfl, if_pos hi]
          simp
        · rw [if_neg (by omega), if_neg hij, if_pos hj]
      · rw [if_neg hj, if_neg (by omega), if_neg hj]
    refine ⟨_, rfl, ?_, ?_, ?_, ?_, ?_, hi⟩
    · split
      · rw [Bucket.view]
        simp only [hs]
      · rw [Bucket.view, hs]
    all_goals split <;> rfl
  · cases hp

theorem pushBack_eq {m : List E} {b : Bucket E} {e : E} {v : Geobucket.Bucket E}
    (h : b.start + b.cap ≤ m.length) (hsz : b.size ≤ b.cap) (hp : (b.view m).pushBack c e = some v) :
    ∃ b', b.pushBack c m e = some (put m (b.start + b.size) [e], b') ∧
      b'.view (put m (b.start + b.size) [e]) = v ∧
      b'.start = b.start ∧ b'.other = b.other ∧ b'.cap = b.cap ∧ b'.size ≤ b.cap ∧ b.size < b.cap := by
  have hl : (slice m b.start b.size).length = b.size := slice_length (by omega)
  rw [Geobucket.Bucket.pushBack] at hp
  simp only [Bucket.view, hl] at hp
  split at hp
  · rename_i hi
    cases hp
    rw [Bucket.pushBack, wr_eq (by omega)]
    have hs : slice (put m (b.start + b.size) [e]) b.start (b.size + 1) = slice m b.start b.size ++ [e] := by
      apply List.ext_getElem?
      intro j
      rw [slice_get, put_get [e] m _ (by simp only [List.length_singleton]; omega)]
      simp only [List.length_singleton]
      by_cases hj : j < b.size
      · rw [if_pos (by omega), if_neg (by omega), List.getElem?_append_left (by omega), slice_get, if_pos hj]
      · rw [List.getElem?_append_right (by omega), hl]
        by_cases hj2 : j = b.size
        · subst hj2
          rw [if_pos (by omega), if_pos (by omega)]
          simp
        · rw [if_neg (by omega), List.getElem?_eq_none (by simp only [List.length_singleton]; omega)]
    refine ⟨_, rfl, ?_, rfl, rfl, rfl, hi, hi⟩
    rw [Bucket.view]
    simp only [hs]
  · cases hp

theorem insertAtNotEnd_eq {m : List E} {b : Bucket E} {i : ℕ} {e : E} {v : Geobucket.Bucket E}
    (h : b.start + b.cap ≤ m.length) (hsz : b.size ≤ b.cap) (hp : (b.view m).insertAtNotEnd i e = some v) :
    ∃ b' l, b.insertAtNotEnd m i e = some (put m b.start l, b') ∧ l.length = b.size + 1 ∧
      b'.view (put m b.start l) = v ∧
      b'.start = b.start ∧ b'.other = b.other ∧ b'.cap = b.cap ∧ b'.size ≤ b.cap ∧ b.size < b.cap := by
  have hl : (slice m b.start b.size).length = b.size := slice_length (by omega)
  rw [Geobucket.Bucket.insertAtNotEnd] at hp
  simp only [Bucket.view, hl] at hp
  split at hp
  · rename_i hi
    cases hp
    obtain ⟨m', e1, e2, e3⟩ := shiftLoop_eq (b.size - i) (b.start + b.size) m (by omega) (by omega)
    have hlen : ((slice m b.start b.size).take i ++ e :: (slice m b.start b.size).drop i).length = b.size + 1 := by
      rw [List.length_append, List.length_take, List.length_cons, List.length_drop, hl]
      omega
    have hm : m'.set (b.start + i) e = put m b.start ((slice m b.start b.size).take i ++ e :: (slice m b.start b.size).drop i) := by
      apply List.ext_getElem?
      intro j
      rw [put_get _ _ _ (by rw [hlen]; omega), hlen, List.getElem?_set, e2, e3]
      by_cases h1 : b.start + i = j
      · subst h1
        rw [if_pos rfl, if_pos (by omega), if_pos (by omega), List.getElem?_append_right (by rw [List.length_take, hl]; omega),
          List.length_take, hl]
        rw [show b.start + i - b.start - min i b.size = 0 by omega]
        rfl
      · rw [if_neg h1]
        by_cases h2 : b.start ≤ j ∧ j < b.start + (b.size + 1)
        · rw [if_pos h2]
          by_cases h3 : j < b.start + i
          · rw [if_neg (by omega), List.getElem?_append_left (by rw [List.length_take, hl]; omega), List.getElem?_take,
              if_pos (by omega), slice_get, if_pos (by omega)]
            congr 1
            omega
          · rw [if_pos (by omega), List.getElem?_append_right (by rw [List.length_take, hl]; omega), List.length_take, hl]
            obtain ⟨k, rfl⟩ : ∃ k, j = b.start + i + 1 + k := ⟨j - (b.start + i + 1), by omega⟩
            rw [show b.start + i + 1 + k - b.start - min i b.size = k + 1 by omega, List.getElem?_cons_succ,
              List.getElem?_drop, slice_get, if_pos (by omega)]
            congr 1
            omega
        · rw [if_neg h2, if_neg (by omega)]
    rw [Bucket.insertAtNotEnd, if_pos hi.1, e1, Option.bind_eq_bind, Option.bind_some, wr_eq' (by omega), hm]
    refine ⟨_, _, rfl, hlen, ?_, rfl, rfl, rfl, hi.2, hi.2⟩
    rw [Bucket.view]
    simp only
    rw [← hlen, slice_put_self (by rw [hlen]; omega)]
  · cases hp

theorem assign_eq {m : List E} {b : Bucket E} {a : Src E} {v : Geobucket.Bucket E} (hin : a.In m)
    (hcl : a.Clear b.start (b.start + b.cap)) (h : b.start + b.cap ≤ m.length)
    (hf : (b.view m).fill (a.content m) = some v) :
    ∃ b', b.assign m a = some (put m b.start (a.content m), b') ∧ b'.view (put m b.start (a.content m)) = v ∧
      b'.start = b.start ∧ b'.other = b.other ∧ b'.cap = b.cap ∧ b'.size ≤ b.cap ∧
      (a.content m).length ≤ b.cap := by
  have hle := fill_le hf
  have hl := Src.content_length hin
  rw [Bucket.assign, copy_eq hin (hcl.mono le_rfl (by omega)) (by omega), Option.bind_eq_bind, Option.bind_some]
  have hs := slice_put_self (m := m) (p := b.start) (l := a.content m) (by omega)
  have hlast : a.last (put m b.start (a.content m)) = (a.content m).getLast? := by
    rw [Src.last_eq (hin.of_length (put_length _ _ _)), Src.content_put (by omega) (hcl.mono le_rfl (by omega))]
  have hv := fill_view (m' := put m b.start (a.content m)) (p := b.start) (o := b.other) hf hs
  simp only
  split
  · rename_i h0
    rw [hlast]
    obtain ⟨x, hx⟩ : ∃ x, (a.content m).getLast? = some x := by
      cases hg : (a.content m).getLast? with
      | none =>
        rw [List.getLast?_eq_none_iff] at hg
        rw [hg] at hl
        simp only [List.length_nil] at hl
        omega
      | some x => exact ⟨x, rfl⟩
    rw [hx, Option.bind_eq_bind, Option.bind_some]
    refine ⟨_, rfl, ?_, rfl, rfl, rfl, by simp only; omega, hle⟩
    rw [hx, hl, if_pos h0] at hv
    exact hv
  · rename_i h0
    refine ⟨_, rfl, ?_, rfl, rfl, rfl, by simp only; omega, hle⟩
    rw [hl, if_neg h0] at hv
    exact hv

theorem bucketMerge_eq {m : List E} {b : Bucket E} {a₁ a₂ : Src E} {l₁ l₂ : List E} {v : Geobucket.Bucket E}
    (h1 : a₁.In m) (h2 : a₂.In m) (e1 : a₁.content m = l₁) (e2 : a₂.content m = l₂)
    (k1 : a₁.Clear b.start (b.start + b.cap)) (k2 : a₂.Clear b.start (b.start + b.cap))
    (h : b.start + b.cap ≤ m.length)
    (hf : (b.view m).fill (Geobucket.merge c l₁ l₂).1 = some v) :
    ∃ b', b.merge c m a₁ a₂ = some (put m b.start (Geobucket.merge c l₁ l₂).1, b', (Geobucket.merge c l₁ l₂).2) ∧
      b'.view (put m b.start (Geobucket.merge c l₁ l₂).1) = v ∧
      b'.start = b.start ∧ b'.other = b.other ∧ b'.cap = b.cap ∧ b'.size ≤ b.cap ∧
      (Geobucket.merge c l₁ l₂).1.length ≤ b.cap := by
  have hle := fill_le hf
  rw [Bucket.merge, merge_eq h1 h2 e1 e2 (k1.mono le_rfl (by omega)) (k2.mono le_rfl (by omega)) (by omega),
    Option.bind_eq_bind, Option.bind_some]
  simp only [Nat.add_sub_cancel_left]
  rw [setBack_eq (by simp only [put_length]; omega), Option.bind_eq_bind, Option.bind_some]
  have hs := slice_put_self (m := m) (p := b.start) (l := (Geobucket.merge c l₁ l₂).1) (by omega)
  refine ⟨_, rfl, ?_, rfl, rfl, rfl, hle, hle⟩
  simp only [hs]
  exact fill_view hf hs

end Verif.GeoMem
