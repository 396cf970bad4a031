import Verif.Geobucket
import Mathlib.Data.List.Nodup
import Mathlib.Logic.Equiv.Basic

/-!
# Helper lemmas about the tracked front of `Geobucket`: the array and the positions
-/

namespace Verif.Geobucket

variable {E : Type}

/-- The array lists `live`, and the positions of the buckets say so. -/
structure Link (f : Front) (live : List ℕ) : Prop where
  fend : f.fend = live.length
  slot : ∀ i : ℕ, i < live.length → f.slots[i]? = some live[i]?
  pos : ∀ b i : ℕ, f.pos[b]? = some (.slot i) ↔ live[i]? = some b
  null : ∀ b : ℕ, b < f.pos.length → b ∉ live → f.pos[b]? = some .null

/-- Put bucket `b` at cell `p`. -/
def fillHole (f : Front) (p b : ℕ) : Front :=
  ⟨f.cached, f.slots.set p (some b), f.fend, f.pos.set b (.slot p)⟩

namespace Link
variable {f : Front} {live : List ℕ}

theorem mem_lt (h : Link f live) {b : ℕ} (hb : b ∈ live) : b < f.pos.length := by
  obtain ⟨i, hi⟩ := List.mem_iff_getElem?.mp hb
  exact (List.getElem?_eq_some_iff.mp ((h.pos b i).mpr hi)).1

theorem mem_pos (h : Link f live) {b : ℕ} (hb : b ∈ live) :
    ∃ i, i < live.length ∧ live[i]? = some b ∧ f.pos[b]? = some (.slot i) := by
  obtain ⟨i, hi⟩ := List.mem_iff_getElem?.mp hb
  exact ⟨i, (List.getElem?_eq_some_iff.mp hi).1, hi, (h.pos b i).mpr hi⟩

theorem inj (h : Link f live) {i j b : ℕ} (hi : live[i]? = some b) (hj : live[j]? = some b) :
    i = j := by
  have h1 := (h.pos b i).mpr hi
  have h2 := (h.pos b j).mpr hj
  rw [h1] at h2
  simpa using h2

theorem nodup (h : Link f live) : live.Nodup := by
  rw [List.nodup_iff_injective_getElem]
  intro ⟨i, hi⟩ ⟨j, hj⟩ hij
  have : i = j := h.inj (b := live[i]) (List.getElem?_eq_getElem hi)
    (by rw [List.getElem?_eq_getElem hj]; exact congrArg some hij.symm)
  simpa using this

theorem le (h : Link f live) : live.length ≤ f.slots.length := by
  rcases Nat.eq_zero_or_pos live.length with h0 | h0
  · omega
  · have := h.slot (live.length - 1) (by omega)
    have := (List.getElem?_eq_some_iff.mp this).1
    omega

theorem rd (h : Link f live) {i b : ℕ} (hi : live[i]? = some b) : f.rdSlot i = some b := by
  have := h.slot i (List.getElem?_eq_some_iff.mp hi).1
  rw [Front.rdSlot, this, hi]
  rfl

/-- Only the entries of the lists matter. -/
theorem congr {g : Front} (h : Link f live) (h1 : g.fend = f.fend)
    (h2 : ∀ i : ℕ, i < live.length → g.slots[i]? = f.slots[i]?) (h3 : ∀ b : ℕ, g.pos[b]? = f.pos[b]?) :
    Link g live := by
  refine ⟨h1.trans h.fend, fun i hi => (h2 i hi).trans (h.slot i hi), fun b i => ?_, fun b hb hn => ?_⟩
  · rw [h3]; exact h.pos b i
  · rw [h3]
    apply h.null b _ hn
    have := List.getElem?_eq_getElem hb
    rw [h3] at this
    exact (List.getElem?_eq_some_iff.mp this).1

theorem fill (h : Link f live) {b p : ℕ} (hp : live[p]? = some b) : Link (fillHole f p b) live := by
  have hlt := (List.getElem?_eq_some_iff.mp hp).1
  refine h.congr rfl (fun i hi => ?_) (fun z => ?_)
  · simp only [fillHole, List.getElem?_set]
    split
    · subst_vars
      have := h.le
      rw [if_pos (by omega), h.slot _ hlt, hp]
    · rfl
  · simp only [fillHole, List.getElem?_set]
    split
    · subst_vars
      have h1 := (h.pos _ _).mpr hp
      rw [if_pos (List.getElem?_eq_some_iff.mp h1).1, h1]
    · rfl

end Link

theorem getElem?_mid {α : Type} (A B : List α) (x : α) (i : ℕ) :
    (A ++ x :: B)[i]? = if i = A.length then some x else if i < A.length then A[i]? else B[i - A.length - 1]? := by
  rw [List.getElem?_append]
  split
  · rw [if_neg (by omega)]
  · split
    · subst_vars; simp
    · obtain ⟨k, hk⟩ : ∃ k, i = A.length + 1 + k := ⟨i - A.length - 1, by omega⟩
      subst hk
      rw [show A.length + 1 + k - A.length = k + 1 by omega, List.getElem?_cons_succ]
      congr 1

theorem getElem?_two {α : Type} (A B : List α) (x y x' y' : α) (i : ℕ) :
    (A ++ x :: y :: B)[i]? = if i = A.length then some x else if i = A.length + 1 then some y
      else (A ++ x' :: y' :: B)[i]? := by
  rw [getElem?_mid, getElem?_mid]
  split
  · rfl
  · split
    · rw [if_neg (by omega)]
    · split
      · subst_vars
        simp
      · obtain ⟨k, hk⟩ : ∃ k, i = A.length + 2 + k := ⟨i - A.length - 2, by omega⟩
        subst hk
        rw [show A.length + 2 + k - A.length - 1 = k + 1 by omega, List.getElem?_cons_succ,
          List.getElem?_cons_succ]

/-- Two neighbours change places. -/
theorem Link.swapAdj {g : Front} {A B : List ℕ} {q b : ℕ} (h : Link g (A ++ q :: b :: B)) :
    Link ⟨g.cached, (g.slots.set A.length (some b)).set (A.length + 1) (some q), g.fend,
      (g.pos.set b (.slot A.length)).set q (.slot (A.length + 1))⟩ (A ++ b :: q :: B) := by
  have hle := h.le
  have hlen : (A ++ q :: b :: B).length = A.length + B.length + 2 := by simp; omega
  have hq : (A ++ q :: b :: B)[A.length]? = some q := by rw [getElem?_mid, if_pos rfl]
  have hb : (A ++ q :: b :: B)[A.length + 1]? = some b := by
    rw [getElem?_two A B q b q b, if_neg (by omega), if_pos rfl]
  have hqb : q ≠ b := by
    intro e
    subst e
    have := h.inj hq hb
    omega
  have hqp : q < g.pos.length := (List.getElem?_eq_some_iff.mp ((h.pos _ _).mpr hq)).1
  have hbp : b < g.pos.length := (List.getElem?_eq_some_iff.mp ((h.pos _ _).mpr hb)).1
  refine ⟨by rw [h.fend]; simp, ?_, ?_, ?_⟩
  · intro i hi
    have hi' : i < A.length + B.length + 2 := by simpa [Nat.add_assoc] using hi
    rw [getElem?_two A B b q q b]
    simp only [List.getElem?_set, List.length_set]
    by_cases e1 : i = A.length
    · subst e1
      rw [if_neg (by omega), if_pos rfl, if_pos (by omega), if_pos rfl]
    · by_cases e2 : i = A.length + 1
      · subst e2
        rw [if_pos rfl, if_pos (by omega), if_neg (by omega), if_pos rfl]
      · rw [if_neg (by omega), if_neg (by omega), if_neg e1, if_neg e2]
        exact h.slot i (by omega)
  · intro z i
    rw [getElem?_two A B b q q b]
    simp only [List.getElem?_set, List.length_set]
    by_cases z1 : q = z
    · subst z1
      rw [if_pos rfl, if_pos hqp]
      constructor
      · intro e
        cases e
        rw [if_neg (by omega), if_pos rfl]
      · intro e
        split at e
        · cases e; exact absurd rfl hqb
        · split at e
          · subst_vars; rfl
          · have := h.inj e hq
            omega
    · rw [if_neg z1]
      by_cases z2 : b = z
      · subst z2
        rw [if_pos rfl, if_pos hbp]
        constructor
        · intro e
          cases e
          rw [if_pos rfl]
        · intro e
          split at e
          · subst_vars; rfl
          · split at e
            · cases e; exact absurd rfl hqb
            · have := h.inj e hb
              omega
      · rw [if_neg z2]
        rw [h.pos z i]
        constructor
        · intro e
          by_cases e1 : i = A.length
          · subst e1; rw [hq] at e; cases e; exact absurd rfl z1
          · by_cases e2 : i = A.length + 1
            · subst e2; rw [hb] at e; cases e; exact absurd rfl z2
            · rw [if_neg e1, if_neg e2]; exact e
        · intro e
          split at e
          · cases e; exact absurd rfl z2
          · split at e
            · cases e; exact absurd rfl z1
            · exact e
  · intro z hz hn
    simp only [List.length_set] at hz
    simp only [List.getElem?_set, List.length_set]
    have h1 : z ≠ q := by intro e; apply hn; subst e; simp
    have h2 : z ≠ b := by intro e; apply hn; subst e; simp
    rw [if_neg (fun e => h1 e.symm), if_neg (fun e => h2 e.symm)]
    apply h.null z hz
    intro hm
    apply hn
    simp only [List.mem_append, List.mem_cons] at hm ⊢
    tauto

theorem wrSlot_some {f : Front} {i b : ℕ} (h : i < f.slots.length) :
    f.wrSlot i b = some ⟨f.cached, f.slots.set i (some b), f.fend, f.pos⟩ := by
  rw [Front.wrSlot, if_pos h]

theorem setPos_some {f : Front} {b : ℕ} {t : Tok} (h : b < f.pos.length) :
    f.setPos b t = some ⟨f.cached, f.slots, f.fend, f.pos.set b t⟩ := by
  rw [Front.setPos, if_pos h]

theorem settle_some {f : Front} {p b : ℕ} (h1 : p < f.slots.length) (h2 : b < f.pos.length) :
    settle f p b = some (fillHole f p b) := by
  simp only [settle, wrSlot_some h1, Option.bind_eq_bind, Option.bind_some]
  exact setPos_some h2

/-- A bucket `q` moves one cell up into the hole, the hole moves one cell down. -/
theorem Link.holeDown {f : Front} {A B : List ℕ} {q b : ℕ}
    (h : Link (fillHole f (A.length + 1) b) (A ++ q :: b :: B)) :
    f.rdSlot A.length = some q ∧
    ∃ f', (f.wrSlot (A.length + 1) q).bind (fun f => f.setPos q (.slot (A.length + 1))) = some f' ∧
      Link (fillHole f' A.length b) (A ++ b :: q :: B) ∧ f'.pos.length = f.pos.length ∧ f'.fend = f.fend := by
  have hle := h.le
  have hlen : (A ++ q :: b :: B).length = A.length + B.length + 2 := by simp; omega
  have hsl : (fillHole f (A.length + 1) b).slots.length = f.slots.length := by simp [fillHole]
  have hpl : (fillHole f (A.length + 1) b).pos.length = f.pos.length := by simp [fillHole]
  have hq : (A ++ q :: b :: B)[A.length]? = some q := by rw [getElem?_mid, if_pos rfl]
  have hqp := h.mem_lt (b := q) (by simp)
  have hqb : q ≠ b := by
    have := h.nodup
    rw [List.nodup_append] at this
    have := this.2.1
    simp only [List.nodup_cons, List.mem_cons, not_or] at this
    exact this.1.1
  refine ⟨?_, ⟨f.cached, f.slots.set (A.length + 1) (some q), f.fend, f.pos.set q (.slot (A.length + 1))⟩,
    ?_, ?_, by simp, rfl⟩
  · have := h.rd hq
    simp only [Front.rdSlot, fillHole, List.getElem?_set] at this ⊢
    rwa [if_neg (by omega)] at this
  · rw [wrSlot_some (by omega), Option.bind_some, setPos_some (by simp only; omega)]
  · have := h.swapAdj
    refine Link.congr this rfl ?_ ?_
    · intro i hi
      simp only [fillHole, List.getElem?_set, List.length_set]
      split_ifs <;> first | rfl | omega
    · intro z
      simp only [fillHole, List.getElem?_set, List.length_set]
      split_ifs <;> subst_vars <;> first | rfl | omega

/-- A bucket `q` moves one cell down into the hole, the hole moves one cell up. -/
theorem Link.holeUp {f : Front} {A B : List ℕ} {q b : ℕ}
    (h : Link (fillHole f A.length b) (A ++ b :: q :: B)) :
    f.rdSlot (A.length + 1) = some q ∧
    ∃ f', (f.wrSlot A.length q).bind (fun f => f.setPos q (.slot A.length)) = some f' ∧
      Link (fillHole f' (A.length + 1) b) (A ++ q :: b :: B) ∧ f'.pos.length = f.pos.length ∧ f'.fend = f.fend := by
  have hle := h.le
  have hlen : (A ++ b :: q :: B).length = A.length + B.length + 2 := by simp; omega
  have hsl : (fillHole f A.length b).slots.length = f.slots.length := by simp [fillHole]
  have hpl : (fillHole f A.length b).pos.length = f.pos.length := by simp [fillHole]
  have hq : (A ++ b :: q :: B)[A.length + 1]? = some q := by
    rw [getElem?_two A B b q b q, if_neg (by omega), if_pos rfl]
  have hqp := h.mem_lt (b := q) (by simp)
  have hqb : b ≠ q := by
    have := h.nodup
    rw [List.nodup_append] at this
    have := this.2.1
    simp only [List.nodup_cons, List.mem_cons, not_or] at this
    exact this.1.1
  refine ⟨?_, ⟨f.cached, f.slots.set A.length (some q), f.fend, f.pos.set q (.slot A.length)⟩,
    ?_, ?_, by simp, rfl⟩
  · have := h.rd hq
    simp only [Front.rdSlot, fillHole, List.getElem?_set] at this ⊢
    rwa [if_neg (by omega)] at this
  · rw [wrSlot_some (by omega), Option.bind_some, setPos_some (by simp only; omega)]
  · have := h.swapAdj
    refine Link.congr this rfl ?_ ?_
    · intro i hi
      simp only [fillHole, List.getElem?_set, List.length_set]
      split_ifs <;> rfl
    · intro z
      simp only [fillHole, List.getElem?_set, List.length_set]
      split_ifs <;> subst_vars <;> rfl

/-! ## `remove` -/

theorem removeLoop_spec : ∀ (B : List ℕ) (A : List ℕ) (b : ℕ) (f : Front),
    Link (fillHole f A.length b) (A ++ b :: B) →
    ∃ f', removeLoop B.length (A.length + 1) f = some f' ∧
      Link (fillHole f' (A ++ B).length b) ((A ++ B) ++ [b]) ∧ f'.pos.length = f.pos.length ∧ f'.fend = f.fend := by
  intro B
  induction B with
  | nil =>
    intro A b f h
    exact ⟨f, rfl, by simpa using h, rfl, rfl⟩
  | cons q B ih =>
    intro A b f h
    obtain ⟨h1, f', h2, h3, h4, h5⟩ := h.holeUp
    have h3' : Link (fillHole f' (A ++ [q]).length b) ((A ++ [q]) ++ b :: B) := by simpa using h3
    obtain ⟨f'', k1, k2, k3, k4⟩ := ih (A ++ [q]) b f' h3'
    refine ⟨f'', ?_, by simpa using k2, k3.trans h4, k4.trans h5⟩
    obtain ⟨g, g1, g2⟩ := Option.bind_eq_some_iff.mp h2
    have e : A.length + 1 - 1 = A.length := by omega
    simp only [List.length_cons, removeLoop, h1, e, g1, g2, Option.bind_eq_bind, Option.bind_some]
    simpa using k1

theorem removeT_hole {A B : List ℕ} {b : ℕ} {f : Front} (h : Link (fillHole f A.length b) (A ++ b :: B))
    (hp : f.pos[b]? = some (.slot A.length)) :
    ∃ f', removeT f b = some f' ∧ Link f' (A ++ B) ∧ f'.pos.length = f.pos.length := by
  have hf : f.fend = _ := h.fend
  have hlen : (A ++ b :: B).length = A.length + B.length + 1 := by simp; omega
  obtain ⟨f', h1, h2, h3, h4⟩ := removeLoop_spec B A b f h
  have hbl := (List.getElem?_eq_some_iff.mp hp).1
  refine ⟨⟨f'.cached, f'.slots, f'.fend - 1, f'.pos.set b .null⟩, ?_, ?_, by simp [h3]⟩
  · simp only [removeT, hp]
    rw [if_pos (by omega), show f.fend - (A.length + 1) = B.length by omega, h1]
    simp only [Option.bind_eq_bind, Option.bind_some]
    exact setPos_some (by simp only; omega)
  · have hbn : b ∉ A ++ B := by
      intro hm
      have := h2.nodup
      rw [List.nodup_append] at this
      exact this.2.2 b hm b (by simp) rfl
    refine ⟨?_, ?_, ?_, ?_⟩
    · show f'.fend - 1 = _
      rw [h4, hf, hlen]
      simp
    · intro i hi
      have := h2.slot i (by simp at hi ⊢; omega)
      rw [List.getElem?_append_left hi] at this
      simp only [fillHole, List.getElem?_set] at this
      rwa [if_neg (by omega)] at this
    · intro z i
      simp only [List.getElem?_set]
      by_cases hz : b = z
      · subst hz
        rw [if_pos rfl, if_pos (by omega)]
        constructor
        · intro e; cases e
        · intro e; exact absurd (List.mem_of_getElem? e) hbn
      · rw [if_neg hz]
        have := h2.pos z i
        simp only [fillHole, List.getElem?_set] at this
        rw [if_neg hz] at this
        rw [this]
        constructor
        · intro e
          rw [List.getElem?_append] at e
          split at e
          · exact e
          · have := List.mem_of_getElem? e
            simp at this
            exact absurd this.symm hz
        · intro e
          rw [List.getElem?_append_left (List.getElem?_eq_some_iff.mp e).1]
          exact e
    · intro z hz hn
      simp only [List.getElem?_set]
      by_cases hzb : b = z
      · subst hzb
        rw [if_pos rfl, if_pos (by omega)]
      · rw [if_neg hzb]
        have := h2.null z (by simpa [fillHole] using hz) (by
          intro hm
          rcases List.mem_append.mp hm with h | h
          · exact hn h
          · simp at h; exact hzb h.symm)
        simp only [fillHole, List.getElem?_set] at this
        rwa [if_neg hzb] at this

theorem removeT_spec {A B : List ℕ} {b : ℕ} {f : Front} (h : Link f (A ++ b :: B)) :
    ∃ f', removeT f b = some f' ∧ Link f' (A ++ B) ∧ f'.pos.length = f.pos.length := by
  have hb : (A ++ b :: B)[A.length]? = some b := by rw [getElem?_mid, if_pos rfl]
  exact removeT_hole (h.fill hb) ((h.pos b A.length).mpr hb)

/-! ## `reserveCapacity` and the first half of `insert` -/

theorem reserveCapacity_spec {f : Front} {live : List ℕ} (h : Link f live) {n : ℕ}
    (hn : live.length ≤ n) :
    ∃ f', reserveCapacity f n = some f' ∧ Link f' live ∧ f'.pos.length = f.pos.length ∧
      f'.slots.length = max n 1 ∧ f'.fend = f.fend := by
  have hf := h.fend
  have hle := h.le
  have hmem : ∀ i, some i ∈ f.slots.take f.fend ↔ i ∈ live := by
    intro i
    rw [List.mem_iff_getElem?, List.mem_iff_getElem?]
    constructor
    · intro ⟨k, hk⟩
      rw [List.getElem?_take] at hk
      split at hk
      · rename_i hk'
        rw [h.slot k (by omega)] at hk
        exact ⟨k, by simpa using hk⟩
      · cases hk
    · intro ⟨k, hk⟩
      have hk' := (List.getElem?_eq_some_iff.mp hk).1
      refine ⟨k, ?_⟩
      rw [List.getElem?_take, if_pos (by omega), h.slot k hk', hk]
  have hpos : ∀ (b : ℕ), (f.pos.mapIdx (fun i t =>
      if some i ∈ f.slots.take f.fend then t else if t = .null then .null else .dangling))[b]? =
      f.pos[b]? := by
    intro b
    rw [List.getElem?_mapIdx]
    rcases hb : f.pos[b]? with _ | t
    · rfl
    · simp only [Option.map_some, Option.some.injEq]
      split
      · rfl
      · rename_i hnm
        rw [hmem] at hnm
        have := h.null b (List.getElem?_eq_some_iff.mp hb).1 hnm
        rw [hb] at this
        cases this
        rfl
  refine ⟨_, if_pos ?_, h.congr rfl ?_ hpos, by simp, ?_, rfl⟩
  · split <;> omega
  · intro i hi
    simp only
    rw [List.getElem?_append_left (by simp; omega), List.getElem?_take, if_pos (by omega)]
  · simp only [List.length_append, List.length_take, List.length_replicate]
    split <;> omega

/-- A new bucket at the end of the array. -/
theorem append_spec {f : Front} {live : List ℕ} (h : Link f live) {b : ℕ} (hb : b < f.pos.length)
    (hn : b ∉ live) (hs : f.fend < f.slots.length) :
    ∃ f', (f.wrSlot f.fend b).bind
        (fun f => ({ f with fend := f.fend + 1 } : Front).setPos b (.slot f.fend)) = some f' ∧
      Link f' (live ++ [b]) ∧ f'.pos.length = f.pos.length := by
  have hf := h.fend
  refine ⟨⟨f.cached, f.slots.set f.fend (some b), f.fend + 1, f.pos.set b (.slot f.fend)⟩, ?_, ?_, by simp⟩
  · rw [wrSlot_some hs, Option.bind_some]
    exact setPos_some hb
  · refine ⟨by simp [hf], ?_, ?_, ?_⟩
    · intro i hi
      simp only [List.getElem?_set]
      rw [getElem?_mid]
      by_cases e : i = live.length
      · subst e
        rw [if_pos hf, if_pos hs, if_pos rfl]
      · have : i < live.length := by simp at hi; omega
        rw [if_neg (by omega), if_neg e, if_pos this]
        exact h.slot i this
    · intro z i
      simp only [List.getElem?_set]
      rw [getElem?_mid]
      by_cases hz : b = z
      · subst hz
        rw [if_pos rfl, if_pos hb]
        constructor
        · intro e; cases e
          rw [if_pos hf]
        · intro e
          split at e
          · subst_vars; rw [hf]
          · split at e
            · exact absurd (List.mem_of_getElem? e) hn
            · simp at e
      · rw [if_neg hz, h.pos]
        constructor
        · intro e
          have := (List.getElem?_eq_some_iff.mp e).1
          rw [if_neg (by omega), if_pos this]
          exact e
        · intro e
          split at e
          · cases e; exact absurd rfl hz
          · split at e
            · exact e
            · simp at e
    · intro z hz hm
      simp only [List.mem_append, List.mem_singleton, not_or] at hm
      simp only [List.getElem?_set]
      rw [if_neg (fun e => hm.2 e.symm)]
      exact h.null z (by simpa using hz) hm.1

/-! ## `swapKeys` -/

theorem writeBack_null {f : Front} {a : ℕ} (h : f.pos[a]? = some .null) : writeBack f a = some f := by
  simp [writeBack, h]

theorem writeBack_slot {f : Front} {a p : ℕ} (h : f.pos[a]? = some (.slot p)) :
    writeBack f a = f.wrSlot p a := by
  simp [writeBack, h]

/-- What `swapKeys` does to the front. -/
def swapFront (f : Front) (a b : ℕ) : Option Front := do
  let ta ← f.pos[a]?
  let tb ← f.pos[b]?
  let f ← f.setPos a tb
  let f ← f.setPos b ta
  let f ← writeBack f a
  writeBack f b

/-- Rewriting the array where the positions say so. -/
theorem writeBack_spec {f : Front} {live : List ℕ} {a : ℕ}
    (hpos : ∀ i : ℕ, f.pos[a]? = some (.slot i) ↔ live[i]? = some a)
    (hnull : a ∉ live → f.pos[a]? = some .null) (hle : live.length ≤ f.slots.length) :
    ∃ f', writeBack f a = some f' ∧ f'.pos = f.pos ∧ f'.fend = f.fend ∧ f'.cached = f.cached ∧
      f'.slots.length = f.slots.length ∧
      ∀ i : ℕ, i < live.length → f'.slots[i]? = if live[i]? = some a then some (some a) else f.slots[i]? := by
  by_cases hm : a ∈ live
  · obtain ⟨p, hp⟩ := List.mem_iff_getElem?.mp hm
    have hlt := (List.getElem?_eq_some_iff.mp hp).1
    have hpp := (hpos p).mpr hp
    refine ⟨_, (writeBack_slot hpp).trans (wrSlot_some (by omega)), rfl, rfl, rfl, by simp, ?_⟩
    intro i hi
    simp only [List.getElem?_set]
    by_cases e : p = i
    · subst e
      rw [if_pos rfl, if_pos (by omega), if_pos hp]
    · rw [if_neg e, if_neg]
      intro hi'
      have := (hpos i).mpr hi'
      rw [hpp] at this
      cases this
      exact e rfl
  · refine ⟨f, writeBack_null (hnull hm), rfl, rfl, rfl, rfl, ?_⟩
    intro i hi
    rw [if_neg]
    intro h
    exact hm (List.mem_of_getElem? h)

theorem swapFront_spec {f : Front} {live : List ℕ} (h : Link f live) {a b : ℕ} (hab : a ≠ b)
    (ha : a < f.pos.length) (hb : b < f.pos.length) :
    ∃ f', swapFront f a b = some f' ∧ Link f' (live.map (Equiv.swap a b)) ∧
      f'.pos.length = f.pos.length := by
  obtain ⟨ta, hta⟩ : ∃ t, f.pos[a]? = some t := ⟨_, List.getElem?_eq_getElem ha⟩
  obtain ⟨tb, htb⟩ : ∃ t, f.pos[b]? = some t := ⟨_, List.getElem?_eq_getElem hb⟩
  let g : Front := ⟨f.cached, f.slots, f.fend, (f.pos.set a tb).set b ta⟩
  have hg : ∀ z, g.pos[z]? = f.pos[Equiv.swap a b z]? := by
    intro z
    simp only [g, List.getElem?_set, List.length_set]
    by_cases e1 : b = z
    · subst e1
      rw [if_pos rfl, if_pos hb, Equiv.swap_apply_right, hta]
    · rw [if_neg e1]
      by_cases e2 : a = z
      · subst e2
        rw [if_pos rfl, if_pos ha, Equiv.swap_apply_left, htb]
      · rw [if_neg e2, Equiv.swap_apply_of_ne_of_ne (fun e => e2 e.symm) (fun e => e1 e.symm)]
  have hmap : ∀ z i : ℕ, (live.map (Equiv.swap a b))[i]? = some z ↔ live[i]? = some (Equiv.swap a b z) := by
    intro z i
    rw [List.getElem?_map, Option.map_eq_some_iff]
    constructor
    · rintro ⟨y, h1, h2⟩
      rw [h1, ← h2, Equiv.swap_apply_self]
    · intro h1
      exact ⟨_, h1, Equiv.swap_apply_self _ _ _⟩
  have hgpos : ∀ z i : ℕ, g.pos[z]? = some (.slot i) ↔ (live.map (Equiv.swap a b))[i]? = some z := by
    intro z i
    rw [hg, h.pos, hmap]
  have hmem : ∀ z, z ∈ live.map (Equiv.swap a b) ↔ Equiv.swap a b z ∈ live := by
    intro z
    rw [List.mem_iff_getElem?, List.mem_iff_getElem?]
    simp only [hmap]
  have hlt : ∀ z, z < f.pos.length → Equiv.swap a b z < f.pos.length := by
    intro z hz
    rw [Equiv.swap_apply_def]
    split_ifs <;> assumption
  have hgnull : ∀ z, z < f.pos.length → z ∉ live.map (Equiv.swap a b) → g.pos[z]? = some .null := by
    intro z hz hn
    rw [hmem] at hn
    rw [hg]
    exact h.null _ (hlt z hz) hn
  have hgl : g.pos.length = f.pos.length := by simp [g]
  have hle : (live.map (Equiv.swap a b)).length ≤ g.slots.length := by simpa using h.le
  obtain ⟨f₁, h1, h2, h3, h4, h5, h6⟩ := writeBack_spec (a := a) (hgpos a) (hgnull a ha) hle
  obtain ⟨f₂, k1, k2, k3, k4, k5, k6⟩ := writeBack_spec (f := f₁) (a := b) (live := live.map (Equiv.swap a b))
    (by rw [h2]; exact hgpos b) (by rw [h2]; exact hgnull b hb) (by omega)
  refine ⟨f₂, ?_, ?_, by rw [k2, h2, hgl]⟩
  · simp only [swapFront, hta, htb, Option.bind_eq_bind, Option.bind_some]
    rw [setPos_some ha]
    simp only [Option.bind_some]
    rw [setPos_some (by simpa using hb)]
    simp only [Option.bind_some]
    show (writeBack g a).bind _ = _
    rw [h1]
    exact k1
  · refine ⟨?_, ?_, ?_, ?_⟩
    · rw [k3, h3, List.length_map]
      exact h.fend
    · intro i hi
      rw [k6 i hi, h6 i hi]
      have hi' : i < live.length := by simpa using hi
      obtain ⟨y, hy⟩ : ∃ y, live[i]? = some y := ⟨_, List.getElem?_eq_getElem hi'⟩
      rw [List.getElem?_map, hy, Option.map_some]
      split
      · rename_i e; rw [e]
      · rename_i e1
        split
        · rename_i e; rw [e]
        · rename_i e2
          show f.slots[i]? = _
          rw [h.slot i hi', hy, Equiv.swap_apply_of_ne_of_ne]
          · intro e; subst e; exact e1 (by rw [Equiv.swap_apply_left])
          · intro e; subst e; exact e2 (by rw [Equiv.swap_apply_right])
    · intro z i
      rw [k2, h2]
      exact hgpos z i
    · intro z hz hn
      rw [k2, h2]
      exact hgnull z (by rw [k2, h2, hgl] at hz; exact hz) hn

end Verif.Geobucket
