import Verif.QueueSpace
import Verif.QueueSpaceSpec
import Verif.HeapProofs
import Verif.TourTreeProofs

/-!
# Lemmas on the memory of the priority queues
-/

namespace Verif.Space

variable {E : Type}

theorem leastDoubling_start {m : ℕ} (h : m ≤ 16) : LeastDoubling m 16 := by
  refine ⟨⟨⟨0, by omega⟩, h⟩, ?_⟩
  rintro n ⟨⟨k, rfl⟩, _⟩
  have := Nat.one_le_two_pow (n := k)
  omega

theorem LeastDoubling.mono {m m' n : ℕ} (h : LeastDoubling m n) (h1 : m ≤ m') (h2 : m' ≤ n) : LeastDoubling m' n :=
  ⟨⟨h.1.1, h2⟩, fun _ hx => h.2 ⟨hx.1, h1.trans hx.2⟩⟩

theorem LeastDoubling.double {m m' n : ℕ} (h : LeastDoubling m n) (h1 : n < m') (h2 : m' ≤ n * 2) :
    LeastDoubling m' (n * 2) := by
  obtain ⟨k, hk⟩ := h.1.1
  refine ⟨⟨⟨k + 1, by rw [hk, pow_succ]; omega⟩, h2⟩, ?_⟩
  rintro x ⟨⟨j, rfl⟩, hx⟩
  have : 2 ^ k < 2 ^ j := by omega
  have hkj : k + 1 ≤ j := (Nat.pow_lt_pow_iff_right (by omega : 1 < 2)).mp this
  have := Nat.pow_le_pow_right (show 0 < 2 by omega) hkj
  rw [pow_succ] at this
  omega

theorem LeastDoubling.le {m n : ℕ} (h : LeastDoubling m n) : m ≤ n := h.1.2

theorem LeastDoubling.lt {m n : ℕ} (h : LeastDoubling m n) (h16 : n ≠ 16) : n < 2 * m := by
  obtain ⟨k, hk⟩ := h.1.1
  cases k with
  | zero => exact absurd hk h16
  | succ k =>
    by_contra hcon
    have : n ≤ 16 * 2 ^ k := h.2 ⟨⟨k, rfl⟩, by rw [pow_succ] at hk; omega⟩
    have := Nat.two_pow_pos k
    rw [pow_succ] at hk
    omega

/-! ## Histories with ranges -/

theorem run_append {I : PQImpl E} : ∀ (ops ops' : List (PQOp E)) (s : I.State),
    I.run s (ops ++ ops') = match I.run s ops with
      | none => none
      | some (o, s') => (I.run s' ops').map (fun r => (o ++ r.1, r.2)) := by
  intro ops
  induction ops with
  | nil =>
    intro ops' s
    simp only [List.nil_append, PQImpl.run]
    cases I.run s ops' <;> rfl
  | cons op ops ih =>
    intro ops' s
    simp only [List.cons_append, PQImpl.run]
    cases I.step s op with
    | none => rfl
    | some r =>
      obtain ⟨o, s₁⟩ := r
      simp only [ih]
      cases I.run s₁ ops with
      | none => rfl
      | some r =>
        obtain ⟨os, s₂⟩ := r
        simp only
        cases I.run s₂ ops' <;> rfl

/-- The state that a history leaves. -/
def after (I : PQImpl E) (s : I.State) (ops : List (PQOp E)) : Option I.State := (I.run s ops).map Prod.snd

theorem after_cons {I : PQImpl E} (s : I.State) (op : PQOp E) (ops : List (PQOp E)) :
    after I s (op :: ops) = match I.step s op with
      | none => none
      | some r => after I r.2 ops := by
  unfold after
  simp only [PQImpl.run]
  cases I.step s op with
  | none => rfl
  | some r =>
    simp only
    cases I.run r.2 ops <;> rfl

theorem after_append {I : PQImpl E} (s : I.State) (ops ops' : List (PQOp E)) :
    after I s (ops ++ ops') = (after I s ops).bind (fun s' => after I s' ops') := by
  unfold after
  rw [run_append]
  cases I.run s ops with
  | none => rfl
  | some r =>
    simp only [Option.map_some, Option.bind_some, Option.map_map]
    rfl

/-- A range does what pushes one by one do. -/
def ByOne (I : PQImpl E) : Prop :=
  ∀ (s : I.State) (l : List E), (I.step s (.pushRange l)).map Prod.snd = after I s (l.map .push)

theorem after_expand {I : PQImpl E} (h : ByOne I) : ∀ (ops : List (PQOp E)) (s : I.State),
    after I s (expand ops) = after I s ops := by
  intro ops
  induction ops with
  | nil => intro s; rfl
  | cons op ops ih =>
    intro s
    rw [expand, List.flatMap_cons, after_append, after_cons]
    have hone : ∀ op : PQOp E, after I s [op] = (I.step s op).map Prod.snd := by
      intro op
      rw [after_cons]
      cases I.step s op <;> rfl
    have key : after I s (single op) = (I.step s op).map Prod.snd := by
      cases op with
      | pushRange l => exact (h s l).symm
      | _ => exact hone _
    rw [key]
    cases I.step s op with
    | none => rfl
    | some r => exact ih r.2

theorem peak_cons {I : PQImpl E} (s : I.State) (op : PQOp E) (ops : List (PQOp E)) :
    peak I s (op :: ops) = max (if arrivals op = 0 then 0 else I.size s + arrivals op)
      (match I.step s op with
        | none => 0
        | some (_, s') => peak I s' ops) := rfl

/-! ## Heap -/

theorem heapMem_after (c : PQConf E) : ∀ (l : List E) (s : HeapMem E),
    after (impl c) s (l.map .push) = pushRange c s l := by
  intro l
  induction l with
  | nil => intro s; rfl
  | cons e l ih =>
    intro s
    refine (after_cons (I := impl c) s (.push e) (l.map .push)).trans ?_
    cases hp : push c s e with
    | none =>
      have h1 : (impl c).step s (.push e) = none := by
        show (push c s e).map _ = none
        rw [hp]; rfl
      simp only [h1, pushRange, hp]
      rfl
    | some s' =>
      have h1 : (impl c).step s (.push e) = some (none, s') := by
        show (push c s e).map _ = _
        rw [hp]; rfl
      rw [h1, pushRange, hp]
      exact ih s'

theorem heapMem_byOne (c : PQConf E) : ByOne (impl c) := by
  intro s l
  refine Eq.trans ?_ (heapMem_after c l s).symm
  change ((pushRange c s l).map (fun s => ((none : Option E), s))).map Prod.snd = pushRange c s l
  cases pushRange c s l <;> rfl

theorem heap_after (c : PQConf E) : ∀ (l : List E) (s : List E),
    after (Heap.impl c) s (l.map .push) = Heap.pushRange c s l := by
  intro l
  induction l with
  | nil => intro s; rfl
  | cons e l ih =>
    intro s
    refine (after_cons (I := Heap.impl c) s (.push e) (l.map .push)).trans ?_
    cases hp : Heap.push c s e with
    | none =>
      have h1 : (Heap.impl c).step s (.push e) = none := by
        show (Heap.push c s e).map _ = none
        rw [hp]; rfl
      simp only [h1, Heap.pushRange, hp]
      rfl
    | some s' =>
      have h1 : (Heap.impl c).step s (.push e) = some (none, s') := by
        show (Heap.push c s e).map _ = _
        rw [hp]; rfl
      rw [h1, Heap.pushRange, hp]
      exact ih s'

theorem heap_byOne (c : PQConf E) : ByOne (Heap.impl c) := by
  intro s l
  refine Eq.trans ?_ (heap_after c l s).symm
  change ((Heap.pushRange c s l).map (fun s => ((none : Option E), s))).map Prod.snd = Heap.pushRange c s l
  cases Heap.pushRange c s l <;> rfl

theorem makeRoom_t (s : HeapMem E) : (makeRoom s).t = s.t := by
  unfold makeRoom
  split <;> rfl

theorem pushRange_t (c : PQConf E) : ∀ (l : List E) (s : HeapMem E),
    (pushRange c s l).map HeapMem.t = Heap.pushRange c s.t l := by
  intro l
  induction l with
  | nil => intro s; rfl
  | cons e l ih =>
    intro s
    rw [pushRange, Heap.pushRange, push, makeRoom_t]
    cases Heap.push c s.t e with
    | none => rfl
    | some t => exact ih _

/-- The capacity does not matter for what a call does. -/
theorem step_t (c : PQConf E) (s : HeapMem E) (op : PQOp E) :
    (step c s op).map (fun r => (r.1, r.2.t)) = Heap.step c s.t op := by
  cases op with
  | push e =>
    show ((push c s e).map _).map _ = (Heap.push c s.t e).map _
    rw [push, makeRoom_t]
    cases Heap.push c s.t e <;> rfl
  | pushRange l =>
    show ((pushRange c s l).map _).map _ = (Heap.pushRange c s.t l).map _
    rw [← pushRange_t]
    cases pushRange c s l <;> rfl
  | top =>
    show ((Heap.top s.t).map _).map _ = (Heap.top s.t).map _
    cases Heap.top s.t <;> rfl
  | pop =>
    show ((Heap.pop c s.t).map _).map _ = (Heap.pop c s.t).map _
    cases Heap.pop c s.t <;> rfl
  | decreaseTop e =>
    show ((Heap.decreaseTop c s.t e).map _).map _ = (Heap.decreaseTop c s.t e).map _
    cases Heap.decreaseTop c s.t e <;> rfl
  | clear => rfl

theorem run_t (c : PQConf E) : ∀ (ops : List (PQOp E)) (s : HeapMem E),
    (show Option (List (Option E) × HeapMem E) from (impl c).run s ops).map (fun r => (r.1, r.2.t)) =
      (Heap.impl c).run s.t ops := by
  intro ops
  induction ops with
  | nil => intro s; rfl
  | cons op ops ih =>
    intro s
    have h := step_t c s op
    cases hs : step c s op with
    | none =>
      rw [hs] at h
      have h1 : (impl c).step s op = none := hs
      have h2 : (Heap.impl c).step s.t op = none := h.symm
      simp only [PQImpl.run, h1, h2]
      rfl
    | some r =>
      obtain ⟨o, s'⟩ := r
      rw [hs] at h
      have h1 : (impl c).step s op = some (o, s') := hs
      have h2 : (Heap.impl c).step s.t op = some (o, s'.t) := h.symm
      simp only [PQImpl.run, h1, h2]
      rw [← ih s']
      cases (impl c).run s' ops <;> rfl

/-- What is known of the capacity when the largest number of entries so far is `m`. -/
structure Holds (m : ℕ) (s : HeapMem E) : Prop where
  none : m = 0 → s.cap = 0 ∧ s.copied = 0 ∧ s.t = []
  some : m ≠ 0 → LeastDoubling m s.cap ∧ s.copied + 16 = s.cap ∧ s.t.length ≤ m

theorem Holds.len {m : ℕ} {s : HeapMem E} (h : Holds m s) : s.t.length ≤ m := by
  by_cases hm : m = 0
  · rw [(h.none hm).2.2, List.length_nil]; omega
  · exact (h.some hm).2.2

theorem Holds.fewer {m : ℕ} {s : HeapMem E} (h : Holds m s) {t : List E} (ht : t.length ≤ s.t.length) :
    Holds m { s with t := t } := by
  refine ⟨fun hm => ?_, fun hm => ?_⟩
  · obtain ⟨h1, h2, h3⟩ := h.none hm
    rw [h3] at ht
    exact ⟨h1, h2, List.eq_nil_of_length_eq_zero (by simpa using ht)⟩
  · obtain ⟨h1, h2, h3⟩ := h.some hm
    exact ⟨h1, h2, ht.trans h3⟩

theorem Holds.room {m : ℕ} {s : HeapMem E} (h : Holds m s) {t : List E} (ht : t.length ≤ s.t.length + 1) :
    Holds (max (s.t.length + 1) m) { makeRoom s with t := t } := by
  have hne : max (s.t.length + 1) m ≠ 0 := by omega
  refine ⟨fun hm => absurd hm hne, fun _ => ?_⟩
  have hl := h.len
  by_cases hm : m = 0
  · obtain ⟨h1, h2, h3⟩ := h.none hm
    have h4 : s.t.length = 0 := by rw [h3]; rfl
    have hroom : makeRoom s = { s with cap := 16, copied := 0 } := by
      rw [makeRoom, if_pos (by omega), increased, if_pos h1, h2, h4]
    rw [hroom, hm, h4]
    refine ⟨leastDoubling_start (by omega), rfl, ?_⟩
    show t.length ≤ _
    omega
  · obtain ⟨h1, h2, h3⟩ := h.some hm
    have h16 : 16 ≤ s.cap := by omega
    by_cases hf : s.t.length = s.cap
    · have hmc : m = s.cap := by have := h1.le; omega
      have hroom : makeRoom s = { s with cap := s.cap * 2, copied := s.copied + s.t.length } := by
        rw [makeRoom, if_pos hf, increased, if_neg (by omega)]
      rw [hroom]
      refine ⟨h1.double (by omega) (by omega), ?_, ?_⟩
      · show s.copied + s.t.length + 16 = s.cap * 2
        omega
      · show t.length ≤ _
        omega
    · have hroom : makeRoom s = s := by rw [makeRoom, if_neg hf]
      rw [hroom]
      have hle := h1.le
      refine ⟨h1.mono (by omega) (by omega), h2, ?_⟩
      show t.length ≤ _
      omega

theorem moveValueUp_len {c : PQConf E} : ∀ (n : ℕ) {t t' : List E} {o : ℕ} {v : E}, t.length = n →
    Heap.moveValueUp c t o v = some t' → t'.length ≤ t.length := by
  intro n
  induction n using Nat.strong_induction_on with
  | _ n ih =>
    intro t t' o v hn h
    rw [Heap.moveValueUp_eq] at h
    split at h
    · cases h
    · rename_i hc
      rw [wr_length h, (Heap.climb_length hc).1 _ _ rfl]
    · rename_i hc
      have h1 := (Heap.climb_length hc).2 _ _ rfl
      split at h
      · cases h
      · rename_i hm
        have h2 := Heap.mergeUp_length hm
        split at h
        · cases h; omega
        · exact (ih _ (by omega) rfl h).trans (by omega)

theorem moveHoleDown_len {c : PQConf E} {t : List E} {hole : ℕ} {r : List E × ℕ}
    (h : Heap.moveHoleDown c t hole = some r) : r.1.length = t.length := by
  fun_induction Heap.moveHoleDown c t hole with
  | case4 t hole _ _ a b _ _ child v _ t' hw ih => rw [ih h, wr_length hw]
  | case8 t hole _ _ _ v _ t' hw => cases h; exact wr_length hw
  | case9 => cases h; rfl
  | _ => cases h

theorem push_len {c : PQConf E} {t t' : List E} {e : E} (h : Heap.push c t e = some t') :
    t'.length ≤ t.length + 1 := by
  have := moveValueUp_len _ rfl h
  rwa [List.length_append] at this

theorem decreaseTop_len {c : PQConf E} {t t' : List E} {e : E} (h : Heap.decreaseTop c t e = some t') :
    t'.length ≤ t.length := by
  unfold Heap.decreaseTop at h
  split at h
  · cases h
  · rename_i hm
    have h1 := moveHoleDown_len hm
    exact (moveValueUp_len _ rfl h).trans h1.le

theorem pop_len {c : PQConf E} {t : List E} {r : E × List E} (h : Heap.pop c t = some r) :
    r.2.length ≤ t.length := by
  unfold Heap.pop at h
  have hd : t.dropLast.length ≤ t.length := by rw [List.length_dropLast]; omega
  split at h
  · dsimp only at h
    split at h
    · cases h; exact hd
    · split at h
      · cases h
      · rename_i hm
        have h1 := moveHoleDown_len hm
        split at h
        · cases h
        · rename_i hu
          cases h
          exact ((moveValueUp_len _ rfl hu).trans h1.le).trans hd
  · cases h

/-- No range is pushed. -/
def Single (ops : List (PQOp E)) : Prop := ∀ op ∈ ops, ∀ l, op ≠ .pushRange l

theorem expand_single (ops : List (PQOp E)) : Single (expand ops) := by
  intro op hop l
  obtain ⟨op', _, h⟩ := List.mem_flatMap.mp hop
  rintro rfl
  cases op' <;> simp [single] at h

theorem step_holds {c : PQConf E} {m : ℕ} {s s' : HeapMem E} (h : Holds m s) {op : PQOp E} {o : Option E}
    (hop : ∀ l, op ≠ .pushRange l) (hs : step c s op = some (o, s')) :
    Holds (max (if arrivals op = 0 then 0 else s.t.length + arrivals op) m) s' := by
  unfold step at hs
  cases op with
  | push e =>
    rw [if_neg (by simp [arrivals])]
    obtain ⟨s₁, h1, h2⟩ := Option.map_eq_some_iff.mp hs
    cases h2
    obtain ⟨t, h3, h4⟩ := Option.map_eq_some_iff.mp h1
    rw [makeRoom_t] at h3
    rw [← h4]
    exact h.room (push_len h3)
  | pushRange l => exact absurd rfl (hop l)
  | top =>
    obtain ⟨x, _, h2⟩ := Option.map_eq_some_iff.mp hs
    cases h2
    rw [if_pos (by rfl), Nat.zero_max]
    exact h
  | pop =>
    obtain ⟨r, h1, h2⟩ := Option.map_eq_some_iff.mp hs
    cases h2
    rw [if_pos (by rfl), Nat.zero_max]
    exact h.fewer (pop_len h1)
  | decreaseTop e =>
    obtain ⟨t, h1, h2⟩ := Option.map_eq_some_iff.mp hs
    cases h2
    rw [if_pos (by rfl), Nat.zero_max]
    exact h.fewer (decreaseTop_len h1)
  | clear =>
    cases hs
    rw [if_pos (by rfl), Nat.zero_max]
    exact h.fewer (Nat.zero_le _)

theorem after_holds (c : PQConf E) : ∀ (ops : List (PQOp E)) (m : ℕ) (s s' : HeapMem E), Holds m s → Single ops →
    after (impl c) s ops = some s' → Holds (max m (peak (Heap.impl c) s.t ops)) s' := by
  intro ops
  induction ops with
  | nil =>
    intro m s s' h _ hr
    cases hr
    show Holds (max m 0) s
    rw [Nat.max_zero]
    exact h
  | cons op ops ih =>
    intro m s s' h hop hr
    replace hr := (after_cons (I := impl c) s op ops).symm.trans hr
    cases hs : step c s op with
    | none =>
      rw [show (impl c).step s op = none from hs] at hr
      cases hr
    | some r =>
      obtain ⟨o, s₁⟩ := r
      rw [show (impl c).step s op = some (o, s₁) from hs] at hr
      have ht := step_t c s op
      rw [hs] at ht
      have hp : peak (Heap.impl c) s.t (op :: ops) =
          max (if arrivals op = 0 then 0 else s.t.length + arrivals op) (peak (Heap.impl c) s₁.t ops) := by
        refine (peak_cons (I := Heap.impl c) s.t op ops).trans ?_
        rw [show (Heap.impl c).step s.t op = some (o, s₁.t) from ht.symm]
        rfl
      have := ih _ s₁ s' (step_holds h (hop op List.mem_cons_self) hs)
        (fun x hx => hop x (List.mem_cons_of_mem _ hx)) hr
      rw [hp]
      rwa [max_comm _ m, max_assoc] at this

/-! ## TourTree -/

theorem tour_after (c : PQConf E) : ∀ (l : List E) (s : TourTree.State E),
    after (TourTree.impl c) s (l.map .push) = TourTree.pushRange c s l := by
  intro l
  induction l with
  | nil => intro s; rfl
  | cons e l ih =>
    intro s
    refine (after_cons (I := TourTree.impl c) s (.push e) (l.map .push)).trans ?_
    cases hp : TourTree.push c s e with
    | none =>
      have h1 : (TourTree.impl c).step s (.push e) = none := by
        show (TourTree.push c s e).map _ = none
        rw [hp]; rfl
      simp only [h1, TourTree.pushRange, hp]
      rfl
    | some s' =>
      have h1 : (TourTree.impl c).step s (.push e) = some (none, s') := by
        show (TourTree.push c s e).map _ = _
        rw [hp]; rfl
      rw [h1, TourTree.pushRange, hp]
      exact ih s'

theorem tour_byOne (c : PQConf E) : ByOne (TourTree.impl c) := by
  intro s l
  refine Eq.trans ?_ (tour_after c l s).symm
  change ((TourTree.pushRange c s l).map (fun s => ((none : Option E), s))).map Prod.snd = TourTree.pushRange c s l
  cases TourTree.pushRange c s l <;> rfl

theorem treePush_cap {s s' : TourTree.State E} {p : ℕ} (h : TourTree.treePush s p = some s') :
    s'.cap = s.cap ∧ s'.pcap = s.pcap ∧ s'.players = s.players := by
  unfold TourTree.treePush at h
  split at h
  · cases h; exact ⟨rfl, rfl, rfl⟩
  · cases h

theorem playersPush_cap {s s' : TourTree.State E} {e : E} {p : ℕ} (h : TourTree.playersPush s e p = some s') :
    s'.cap = s.cap ∧ s'.pcap = s.pcap := by
  unfold TourTree.playersPush at h
  split at h
  · cases h; exact ⟨rfl, rfl⟩
  · cases h

theorem push_cap {c : PQConf E} {s s' : TourTree.State E} {e : E} (h : TourTree.push c s e = some s') :
    s'.cap = (if s.cap - s.tree.length ≥ 2 then s else TourTree.reallocate s).cap ∧
      s'.pcap = (if s.cap - s.tree.length ≥ 2 then s else TourTree.reallocate s).pcap := by
  unfold TourTree.push at h
  dsimp only at h
  generalize (if s.cap - s.tree.length ≥ 2 then s else TourTree.reallocate s) = s₁ at h ⊢
  split at h
  · simp only [Option.bind_eq_bind, Option.bind_eq_some_iff] at h
    obtain ⟨a, h1, h2⟩ := h
    have k1 := playersPush_cap h1
    have k2 := treePush_cap h2
    exact ⟨k2.1.trans k1.1, k2.2.1.trans k1.2⟩
  · simp only [Option.bind_eq_bind, Option.bind_eq_some_iff] at h
    obtain ⟨_, _, a, h2, _, _, b, h4, d, h5, _, _, h7⟩ := h
    have k1 := treePush_cap h2
    have k2 := playersPush_cap h4
    have k3 := treePush_cap h5
    cases h7
    exact ⟨k3.1.trans (k2.1.trans k1.1), k3.2.1.trans (k2.2.trans k1.2.1)⟩

theorem decreaseTop_cap {c : PQConf E} {s s' : TourTree.State E} {e : E} (h : TourTree.decreaseTop c s e = some s') :
    s'.cap = s.cap ∧ s'.pcap = s.pcap := by
  unfold TourTree.decreaseTop at h
  simp only [Option.bind_eq_bind, Option.bind_eq_some_iff] at h
  obtain ⟨_, _, _, _, _, _, _, _, h⟩ := h
  cases h
  exact ⟨rfl, rfl⟩

theorem pop_cap {c : PQConf E} {s : TourTree.State E} {r : E × TourTree.State E} (h : TourTree.pop c s = some r) :
    r.2.cap = s.cap ∧ r.2.pcap = s.pcap := by
  unfold TourTree.pop at h
  simp only [Option.bind_eq_bind, Option.bind_eq_some_iff] at h
  obtain ⟨_, _, _, _, h⟩ := h
  split at h
  · cases h; exact ⟨rfl, rfl⟩
  · simp only [Option.bind_eq_some_iff] at h
    obtain ⟨_, _, _, _, _, _, _, _, _, _, _, _, _, _, _, _, _, _, _, _, h⟩ := h
    cases h
    exact ⟨rfl, rfl⟩

/-- What is known of the capacities when the largest number of entries so far is `m`. -/
structure HoldsT (m : ℕ) (s : TourTree.State E) : Prop where
  shape : TourTree.Shape s
  cap : LeastDoubling (2 * m) s.cap
  pcap : s.pcap = s.cap / 2 + 2
  len : s.players.length ≤ m

theorem HoldsT.push {c : PQConf E} {m : ℕ} {s s' : TourTree.State E} (h : HoldsT m s) {e : E}
    (hp : TourTree.push c s e = some s') : HoldsT (max (s.players.length + 1) m) s' := by
  obtain ⟨s₂, k1, k2, k3, _⟩ := TourTree.push_spec c h.shape e
  rw [hp] at k1
  cases k1
  have hlen : s'.players.length = s.players.length + 1 := by
    have := congrArg List.length k3
    rwa [TourTree.entries_length, List.length_append, TourTree.entries_length] at this
  obtain ⟨h1, h2⟩ := push_cap hp
  have ht := h.shape.len
  have hc := h.cap.le
  have hl := h.len
  obtain ⟨k, hk⟩ := h.cap.1.1
  have h16 : 16 ≤ s.cap := by have := Nat.one_le_two_pow (n := k); omega
  have heven : s.cap % 2 = 0 := by rw [hk]; omega
  by_cases hf : s.cap - s.tree.length ≥ 2
  · rw [if_pos hf] at h1 h2
    refine ⟨k2, ?_, by rw [h1, h2]; exact h.pcap, by omega⟩
    rw [h1]
    exact h.cap.mono (by omega) (by omega)
  · rw [if_neg hf] at h1 h2
    have hre : TourTree.reallocate s = { s with cap := s.cap * 2, pcap := max s.pcap (s.cap * 2 / 2 + 2) } := by
      simp only [TourTree.reallocate, if_neg (show s.cap ≠ 0 by omega)]
    rw [hre] at h1 h2
    simp only at h1 h2
    have hpc := h.pcap
    refine ⟨k2, ?_, by omega, by omega⟩
    rw [h1]
    exact h.cap.double (by omega) (by omega)

theorem tour_step_holds {c : PQConf E} {m : ℕ} {s s' : TourTree.State E} (h : HoldsT m s) {op : PQOp E} {o : Option E}
    (hop : ∀ l, op ≠ .pushRange l) (hs : TourTree.step c s op = some (o, s')) :
    HoldsT (max (if arrivals op = 0 then 0 else s.players.length + arrivals op) m) s' := by
  unfold TourTree.step at hs
  cases op with
  | push e =>
    rw [if_neg (by simp [arrivals])]
    obtain ⟨s₁, h1, h2⟩ := Option.map_eq_some_iff.mp hs
    cases h2
    exact h.push h1
  | pushRange l => exact absurd rfl (hop l)
  | top =>
    obtain ⟨x, _, h2⟩ := Option.map_eq_some_iff.mp hs
    cases h2
    rw [if_pos (by rfl), Nat.zero_max]
    exact h
  | pop =>
    obtain ⟨r, h1, h2⟩ := Option.map_eq_some_iff.mp hs
    cases h2
    rw [if_pos (by rfl), Nat.zero_max]
    have hne : TourTree.entries s ≠ [] := by
      intro he
      have h0 : s.tree = [] := List.eq_nil_of_length_eq_zero ((TourTree.nonempty_tree h.shape).mpr he)
      simp [TourTree.pop, h0, rd] at h1
    obtain ⟨x, s₂, _, k1, k2, k3, _⟩ := TourTree.pop_spec c h.shape hne
    rw [h1] at k1
    cases k1
    obtain ⟨h3, h4⟩ := pop_cap h1
    have hl := k3.length_eq
    rw [List.length_cons, TourTree.entries_length, TourTree.entries_length] at hl
    have := h.len
    exact ⟨k2, by rw [h3]; exact h.cap, by rw [h3, h4]; exact h.pcap, by simp only at hl ⊢; omega⟩
  | decreaseTop e =>
    obtain ⟨s₁, h1, h2⟩ := Option.map_eq_some_iff.mp hs
    cases h2
    rw [if_pos (by rfl), Nat.zero_max]
    have hne : TourTree.entries s ≠ [] := by
      intro he
      have h0 : s.tree = [] := List.eq_nil_of_length_eq_zero ((TourTree.nonempty_tree h.shape).mpr he)
      simp [TourTree.decreaseTop, h0, rd] at h1
    obtain ⟨x, s₂, _, k1, k2, ⟨i, _, k3⟩, _⟩ := TourTree.decreaseTop_spec c h.shape hne e
    rw [h1] at k1
    cases k1
    obtain ⟨h3, h4⟩ := decreaseTop_cap h1
    have hl := congrArg List.length k3
    rw [List.length_set, TourTree.entries_length, TourTree.entries_length] at hl
    have := h.len
    exact ⟨k2, by rw [h3]; exact h.cap, by rw [h3, h4]; exact h.pcap, by omega⟩
  | clear =>
    cases hs
    rw [if_pos (by rfl), Nat.zero_max]
    refine ⟨⟨rfl, rfl, fun p q h => by simp [TourTree.clear] at h, fun i _ h => by simp [TourTree.clear] at h,
      Nat.zero_le _, h.shape.capPos, h.shape.pcap⟩, h.cap, h.pcap, Nat.zero_le _⟩

theorem tour_after_holds (c : PQConf E) : ∀ (ops : List (PQOp E)) (m : ℕ) (s s' : TourTree.State E), HoldsT m s →
    Single ops → after (TourTree.impl c) s ops = some s' → HoldsT (max m (peak (TourTree.impl c) s ops)) s' := by
  intro ops
  induction ops with
  | nil =>
    intro m s s' h _ hr
    cases hr
    show HoldsT (max m 0) s
    rw [Nat.max_zero]
    exact h
  | cons op ops ih =>
    intro m s s' h hop hr
    replace hr := (after_cons (I := TourTree.impl c) s op ops).symm.trans hr
    cases hs : TourTree.step c s op with
    | none =>
      rw [show (TourTree.impl c).step s op = none from hs] at hr
      cases hr
    | some r =>
      obtain ⟨o, s₁⟩ := r
      rw [show (TourTree.impl c).step s op = some (o, s₁) from hs] at hr
      have hp : peak (TourTree.impl c) s (op :: ops) =
          max (if arrivals op = 0 then 0 else s.players.length + arrivals op) (peak (TourTree.impl c) s₁ ops) := by
        refine (peak_cons (I := TourTree.impl c) s op ops).trans ?_
        rw [show (TourTree.impl c).step s op = some (o, s₁) from hs]
        rfl
      have := ih _ s₁ s' (tour_step_holds h (hop op List.mem_cons_self) hs)
        (fun x hx => hop x (List.mem_cons_of_mem _ hx)) hr
      rw [hp]
      rwa [max_comm _ m, max_assoc] at this

theorem tour_init : HoldsT 0 (TourTree.init : TourTree.State E) :=
  ⟨TourTree.shape_init, leastDoubling_start (by omega), rfl, Nat.zero_le _⟩

end Verif.Space
