import Verif.GeoAmortProofs
import Verif.GeoCompareSpec
import Verif.GeobucketProofs
import Mathlib.Data.Nat.Log

/-!
# Lemmas on the number of comparisons of the geobucket: calls
-/

namespace Verif.Geobucket

open Verif.Tr (lift ask Costs)

variable {E M : Type} [AddCommMonoid M] {c : Conf E}

theorem setEntry_len {b b' : Bucket E} {i : ℕ} {e : E} (h : b.setEntry c i e = some b') :
    b'.es.length = b.es.length ∧ b'.cap = b.cap := by
  unfold Bucket.setEntry at h
  split at h
  · cases h; exact ⟨List.length_set, rfl⟩
  · cases h

theorem popBack_len {b b' : Bucket E} (h : b.popBack c = some b') : b'.es.length ≤ b.es.length ∧ b'.cap = b.cap := by
  unfold Bucket.popBack at h
  split at h
  · cases h
  · cases h; exact ⟨by simp, rfl⟩

theorem pushBack_len {b b' : Bucket E} {e : E} (h : b.pushBack c e = some b') :
    b'.es.length = b.es.length + 1 ∧ b'.cap = b.cap := by
  unfold Bucket.pushBack at h
  split at h
  · cases h; exact ⟨by simp, rfl⟩
  · cases h

theorem insertAtNotEnd_len {b b' : Bucket E} {i : ℕ} {e : E} (h : b.insertAtNotEnd i e = some b') :
    b'.es.length = b.es.length + 1 ∧ b'.cap = b.cap := by
  unfold Bucket.insertAtNotEnd at h
  split at h
  · rename_i hi
    cases h
    refine ⟨?_, rfl⟩
    simp only [List.length_append, List.length_take, List.length_cons, List.length_drop]
    omega
  · cases h

/-- Entries may go, nothing else changes but the front. -/
structure Shrinks (c : Conf E) (s s' : State E) : Prop where
  slots : Slots c s → Slots c s'
  count : s'.count ≤ s.count
  len : s'.buckets.length = s.buckets.length
  pot : ∀ K, pot K s'.buckets ≤ pot K s.buckets

theorem Shrinks.refl (s : State E) : Shrinks c s s := ⟨id, le_rfl, rfl, fun _ => le_rfl⟩

theorem Shrinks.trans {s s' s'' : State E} (h : Shrinks c s s') (h' : Shrinks c s' s'') : Shrinks c s s'' :=
  ⟨fun k => h'.slots (h.slots k), h'.count.trans h.count, h'.len.trans h.len, fun K => (h'.pot K).trans (h.pot K)⟩

theorem Still.shrinks {s s' : State E} (h : Still s s') : Shrinks c s s' :=
  ⟨fun k => h.ok k, h.count.le, by rw [h.buckets], fun K => by rw [h.buckets]⟩

/-- One bucket loses entries. -/
theorem set_shrinks {s : State E} {i n : ℕ} {b b' : Bucket E} (hb : s.buckets[i]? = some b)
    (he : b'.es.length ≤ b.es.length) (hn : n ≤ s.count) : Shrinks c s { s.setBucket i b' with count := n } := by
  refine ⟨fun k ht => ?_, hn, List.length_set, fun K => ?_⟩
  · show _ ≤ (s.buckets.set i b').length
    rw [List.length_set]; exact k ht
  · exact (pot_set_le (n := 0) hb (by omega)).trans (by omega)

theorem dedupInto_shrinks {s s' : State E} {b q : ℕ} {x y : E} (h : dedupInto c s b q x y = some s') :
    Shrinks c s s' ∧ s'.front = s.front := by
  simp only [dedupInto, Option.bind_eq_bind, Option.bind_eq_some_iff] at h
  obtain ⟨qb, h1, qb', h2, bb, h3, bb', h4, h5⟩ := h
  cases h5
  refine ⟨.trans (set_shrinks (b' := qb') h1 (setEntry_len h2).1.le le_rfl)
    (set_shrinks (b' := bb') (s := s.setBucket q qb') h3 (popBack_len h4).1 (Nat.sub_le _ _)), rfl⟩

theorem map_front_still {s s' : State E} {o : Option Front} (h : o.map (fun f => { s with front := f }) = some s')
    (hl : ∀ f, o = some f → f.slots.length = s.front.slots.length) : Still s s' := by
  rw [Option.map_eq_some_iff] at h
  obtain ⟨f, h1, rfl⟩ := h
  exact ⟨rfl, rfl, hl f h1⟩

theorem rdSlot_lt {f : Front} {i q : ℕ} (h : f.rdSlot i = some q) : i < f.slots.length := by
  by_contra hn
  rw [Front.rdSlot, List.getElem?_eq_none (by omega)] at h
  cases h

theorem decLoopT_costs (b : ℕ) : ∀ (n p : ℕ) (s : State E),
    Costs (decLoopT c b n p s) (fun s' m => Shrinks c s s' ∧ m ≤ s.front.slots.length - (p + 1)) := by
  intro n
  induction n with
  | zero =>
    intro p s
    exact .lift fun s' h => ⟨(map_front_still h fun f hf => (settle_len hf).2).shrinks, Nat.zero_le _⟩
  | succ n ih =>
    intro p s
    refine .liftBind fun q hq => .liftBind fun x _ => .liftBind fun y _ => .ask ?_
    have hlt := rdSlot_lt hq
    refine .ite (fun _ => .liftBind fun f₁ h1 => .liftBind fun f₂ h2 => (ih (p + 1) _).mono fun s' m _ h => ?_)
      fun _ => .ite (fun _ => .lift fun s' h =>
        ⟨(map_front_still h fun f hf => (settle_len hf).2).shrinks, by omega⟩) fun _ =>
      .liftBind fun s₁ h1 => .liftBind fun r hr => ?_
    · have e : f₂.slots.length = s.front.slots.length := by rw [(setPos_len h2).1, (wrSlot_len h1).2.1]
      have hst : Still s { s with front := f₂ } := ⟨rfl, rfl, e⟩
      refine ⟨hst.shrinks.trans h.1, ?_⟩
      have := h.2
      simp only at this
      omega
    · obtain ⟨k1, k2⟩ := dedupInto_shrinks h1
      simp only [afterDedup, Option.bind_eq_bind, Option.bind_eq_some_iff] at hr
      obtain ⟨bb, -, hr⟩ := hr
      split at hr
      · rw [Option.bind_eq_some_iff] at hr
        obtain ⟨f₁, h2, hr⟩ := hr
        rw [Option.bind_eq_some_iff] at hr
        obtain ⟨f₂, h3, hr⟩ := hr
        cases hr
        refine .lift fun s' hs' => ?_
        cases hs'
        have hst : Still s₁ { s₁ with front := f₂ } := ⟨rfl, rfl, by
          show f₂.slots.length = _
          rw [removeT_len h3, (setPos_len h2).1]⟩
        exact ⟨k1.trans hst.shrinks, by omega⟩
      · rw [Option.bind_eq_some_iff] at hr
        obtain ⟨f₁, h2, hr⟩ := hr
        rw [Option.bind_eq_some_iff] at hr
        obtain ⟨f₂, h3, hr⟩ := hr
        cases hr
        have e : f₂.slots.length = s.front.slots.length := by rw [(setPos_len h3).1, (wrSlot_len h2).2.1, k2]
        have hst : Still s₁ { s₁ with front := f₂ } := ⟨rfl, rfl, by rw [k2]; exact e⟩
        refine (ih (p + 1) { s₁ with front := f₂ }).mono fun s' m _ h => ⟨k1.trans (hst.shrinks.trans h.1), ?_⟩
        have := h.2
        simp only at this
        omega

theorem keyDecreasedTr_costs (s : State E) (b : ℕ) (hs : Slots c s) :
    Costs (keyDecreasedTr c s b) (fun s' n => Shrinks c s s' ∧
      n ≤ if c.trackFront then s.buckets.length - 1 else 0) := by
  refine .ite (fun ht => .liftBind fun bb _ => .ite (fun _ => .lift fun s' h => ?_) fun _ => ?_)
    fun ht => .lift fun s' h => ?_
  · exact ⟨(map_front_still h fun f hf => removeT_len hf).shrinks, Nat.zero_le _⟩
  · unfold keyDecreasedFrom
    rcases s.front.pos[b]? with - | (- | p | -)
    · exact .lift nofun
    · exact .lift nofun
    · refine .ite (fun _ => (decLoopT_costs b _ p s).mono fun s' n _ h => ⟨h.1, ?_⟩) fun _ => .lift nofun
      have h1 := hs ht
      have h2 := h.2
      rw [if_pos ht]
      omega
    · exact .lift nofun
  · cases h
    exact ⟨Still.shrinks ⟨rfl, rfl, rfl⟩, Nat.zero_le _⟩

theorem maxLoopT_costs : ∀ (n m it : ℕ) (s : State E),
    Costs (maxLoopT c n m it s) (fun r k => Shrinks c s r.2 ∧ k ≤ n) := by
  intro n
  induction n with
  | zero => intro m it s; exact .lift fun r hr => by cases hr; exact ⟨.refl _, le_rfl⟩
  | succ n ih =>
    intro m it s
    have triv : ∀ m it, Costs (maxLoopT c n m it s) (fun r k => Shrinks c s r.2 ∧ k + 1 ≤ n + 1) :=
      fun m it => (ih m it s).mono fun r k _ h => ⟨h.1, by omega⟩
    refine .liftBind fun ib _ => .ite (fun _ => (ih _ _ _).mono fun r k _ h => ⟨h.1, by omega⟩) fun _ =>
      .liftBind fun mb hm => .liftBind fun x _ => .liftBind fun y _ => .ask ?_
    refine .ite (fun _ => triv _ _) fun _ => .ite (fun _ => .liftBind fun mb' h1 => .liftBind fun ib' h2 =>
      .liftBind fun ib'' h3 => (ih _ _ _).mono fun r k _ h => ⟨.trans ?_ h.1, by omega⟩) fun _ => triv _ _
    exact .trans (set_shrinks (b' := mb') hm (setEntry_len h1).1.le le_rfl)
      (set_shrinks (b' := ib'') (s := s.setBucket m mb') h2 (popBack_len h3).1 (Nat.sub_le _ _))

theorem getMaxT_costs (s : State E) :
    Costs (getMaxT c s) (fun r n => Shrinks c s r.2 ∧ n ≤ if c.trackFront then 0 else s.buckets.length - 1) := by
  refine .ite (fun ht => .lift fun r h => ?_) fun ht => ?_
  · split at h
    · cases h
    · rw [Option.map_eq_some_iff] at h
      obtain ⟨b, -, rfl⟩ := h
      exact ⟨.refl _, Nat.zero_le _⟩
  · unfold cachedMaxT
    rcases s.front.cached with - | b
    · simp only
      unfold computeMaxT
      generalize s.buckets.findIdx? (fun b => !b.es.isEmpty) = o
      rcases o with - | m
      · exact .lift nofun
      · refine .bind ((maxLoopT_costs _ _ _ _).mono fun r n _ h => .lift fun r' hr => ?_)
        cases hr
        refine ⟨h.1.trans (Still.shrinks ⟨rfl, rfl, rfl⟩), ?_⟩
        rw [if_neg ht]
        omega
    · exact .lift fun r hr => by cases hr; exact ⟨.refl _, Nat.zero_le _⟩

theorem popT_costs (s : State E) (hs : Slots c s) :
    Costs (popT c s) (fun r n => Shrinks c s r.2 ∧ n ≤ s.buckets.length - 1) := by
  refine .bind ((getMaxT_costs s).mono fun r n _ h => .liftBind fun b hb => .liftBind fun x _ => .liftBind fun b' hp => ?_)
  have h1 := h.1.trans (set_shrinks (c := c) (n := r.2.count - 1) hb (popBack_len hp).1 (Nat.sub_le _ _))
  refine .bind ((keyDecreasedTr_costs _ _ (h1.slots hs)).mono fun s' m _ h' => .lift fun r' hr => ?_)
  cases hr
  refine ⟨h1.trans h'.1, ?_⟩
  have h2 := h.2
  have h3 := h'.2
  rw [h1.len] at h3
  split at h3 <;> simp_all

theorem topT_costs (s : State E) : Costs (topT c s) (fun r n => Shrinks c s r.2 ∧ n ≤ s.buckets.length - 1) := by
  refine .bind ((getMaxT_costs s).mono fun r n _ h => .liftBind fun b _ => .liftBind fun x _ => .lift fun r' hr => ?_)
  cases hr
  refine ⟨h.1, ?_⟩
  have h2 := h.2
  split at h2 <;> omega

/-! ## Pushing -/

theorem clog_half (range : ℕ) (h : range ≠ 0) : Nat.clog 2 (range / 2 + 1) + 1 = Nat.clog 2 (range + 1) := by
  rw [Nat.clog_of_two_le (n := range + 1) (by omega) (by omega)]
  have e : (range + 1 + 2 - 1) / 2 = range / 2 + 1 := by omega
  rw [e]

theorem binarySearchT_costs (es : List E) (e : E) (start range : ℕ) :
    Costs (binarySearchT c es e start range) (fun _ n => n ≤ Nat.clog 2 (range + 1)) := by
  induction range using Nat.strong_induction_on generalizing start with
  | _ range ih =>
    rw [binarySearchT]
    by_cases h0 : range = 0
    · rw [dif_pos h0]; exact .lift fun _ _ => Nat.zero_le _
    · rw [dif_neg h0]
      have hc := clog_half range h0
      refine .liftBind fun m _ => .ask (.ite (fun _ => (ih _ (by omega) _).mono fun _ n _ h => ?_) fun _ =>
        .ite (fun _ => (ih _ (by omega) _).mono fun _ n _ h => ?_) fun _ => .lift fun _ _ => ?_)
      · omega
      · have : Nat.clog 2 (range - (range / 2 + 1) + 1) ≤ Nat.clog 2 (range / 2 + 1) := Nat.clog_mono_right 2 (by omega)
        omega
      · omega

theorem linearSearchT_len (e : E) : ∀ (es : List E) (i : ℕ), (linearSearchT c e i es).2.length ≤ es.length := by
  intro es
  induction es with
  | nil => intro i; exact le_rfl
  | cons m es ih =>
    intro i
    rw [linearSearchT]
    have := ih (i + 1)
    split
    · simp
    · split
      · simp
      · simp only [List.length_cons]; omega

theorem searchT_costs {es : List E} (e : E) (h : es.length + 1 ≤ c.minBucketSize) :
    Costs (searchT c es e) (fun _ n => n ≤ searchCharge c) := by
  refine .ite (fun hb => (binarySearchT_costs es e 0 es.length).mono fun _ n _ hn => ?_) fun hb => ?_
  · rw [searchCharge, if_pos hb]
    exact hn.trans (Nat.clog_mono_right 2 h)
  · intro p _
    rw [searchCharge, if_neg hb]
    have := linearSearchT_len (c := c) e es 0
    show (linearSearchT c e 0 es).2.length ≤ _
    omega

/-- What a call costs, its charge being `X K` with `K` buckets, when `k` entries come. -/
structure Paid (c : Conf E) (k : ℕ) (X : ℕ → ℕ) (s s' : State E) (n : ℕ) : Prop where
  slots : Slots c s'
  count : s'.count ≤ s.count + k
  len : s.buckets.length ≤ s'.buckets.length
  wide : ∀ Z, Wide c Z s → c.insertFactor * (s.count + k) ≤ Z → Wide c Z s'
  cost : ∀ K, s'.buckets.length ≤ K →
    n + (c.geoBase + 1) * pot K s'.buckets ≤ (c.geoBase + 1) * pot K s.buckets + X K

theorem Shrinks.paid {s s' : State E} (h : Shrinks c s s') (hs : Slots c s) {n : ℕ} (hn : n ≤ s.buckets.length - 1) :
    Paid c 0 (fun K => K - 1) s s' n where
  slots := h.slots hs
  count := h.count
  len := h.len.ge
  wide _ hZ _ := hZ.same h.len
  cost K hK := by
    have := Nat.mul_le_mul_left (c.geoBase + 1) (h.pot K)
    have := h.len
    omega

theorem Paid.mono {s s' : State E} {k n : ℕ} {X Y : ℕ → ℕ} (h : Paid c k X s s' n) (hXY : ∀ K, X K ≤ Y K) :
    Paid c k Y s s' n :=
  ⟨h.slots, h.count, h.len, h.wide, fun K hK => (h.cost K hK).trans (by have := hXY K; omega)⟩

/-- One bucket takes in one entry, at most. -/
theorem set_paid {s s' : State E} {b b' : Bucket E} {n m : ℕ} (hb : s.buckets[0]? = some b)
    (hs : Slots c s') (hc : s'.count ≤ s.count + 1) (he : s'.buckets = s.buckets.set 0 b')
    (hl : b'.es.length ≤ b.es.length + 1) (hn : n ≤ m + (s.buckets.length - 1)) :
    Paid c 1 (fun K => m + entryCharge c K + 2 * (K - 1)) s s' n where
  slots := hs
  count := hc
  len := by rw [he, List.length_set]
  wide _ hZ _ := hZ.same (by rw [he, List.length_set])
  cost K hK := by
    rw [he, List.length_set] at hK
    have h1 := pot_set_le (K := K) (n := 1) (b' := b') hb hl
    have h2 := Nat.mul_le_mul_left (c.geoBase + 1) h1
    rw [he]
    simp only [Nat.sub_zero, Nat.mul_one, Nat.mul_add, entryCharge] at h2 ⊢
    omega

theorem pushT_costs (hsa : Sane c) (hc : c.Lawful) {w : E → M} (hw : c.Weight w) {T : M} {s : State E}
    (h : Inv c w T s) (hs : Slots c s) (e : E) :
    Costs (pushT c s e) (Paid c 1 (fun K => searchCharge c + entryCharge c K + 2 * (K - 1)) s) := by
  obtain ⟨b, hb⟩ : ∃ b, s.buckets[0]? = some b := ⟨_, List.getElem?_eq_getElem h.good.data.length_pos⟩
  have hlt := h.good.data.length_pos
  have hbo := h.good.data.at_ok hb
  have hcap := h.good.data.cap_pos hb
  have hm : b.cap = c.minBucketSize := by rw [h.good.geo 0 b hb, pow_zero, Nat.mul_one]
  have harr := h.good.data.arrive [e]
  have hcount := h.good.data.count
  simp only [List.length_nil, Nat.add_zero] at hcount
  have hset : ∀ (b' : Bucket E) (n : ℕ), Slots c ⟨s.buckets.set 0 b', n, s.front⟩ := by
    intro b' n ht
    show _ ≤ (s.buckets.set 0 b').length
    rw [List.length_set]; exact hs ht
  refine .liftBind fun b₀ h0 => ?_
  cases hb.symm.trans h0
  refine .ite (fun hfull => ?_) fun hfull => .ite (fun he => .liftBind fun b' hp => ?_) fun he => ?_
  · refine (insertT_costs hsa hc hw (X := 0) (s := ⟨s.buckets, s.count + 1, s.front⟩) ⟨harr, h.good.front⟩ hs hb hcap
      (by simp only [List.length_singleton]; omega)).mono fun s' n _ k => ?_
    obtain ⟨k1, k2, k3, k4, k5⟩ := k
    refine ⟨k1, k2, k3, fun Z hZ hz => k4 Z hZ ?_, fun K hK => ?_⟩
    · have := Nat.le_mul_of_pos_left (s.count + 1) hsa.factor
      simp only [List.length_singleton]
      omega
    · have := k5 K hK
      simp only [List.length_singleton, Nat.sub_zero, Nat.mul_one, Nat.mul_add, entryCharge] at this ⊢
      omega
  · have hl := (pushBack_len hp).1
    refine (frontInsertTr_costs _ 0 (hset b' (s.count + 1)) (fun ht => ?_)).mono fun s' n _ k => ?_
    · show _ < (s.buckets.set 0 b').length
      rw [List.length_set]
      exact fend_lt h.good hlt (by rw [esAt_some hb]; exact he) ht
    · obtain ⟨k1, k2, k3, k4⟩ := k
      have e1 : (⟨s.buckets.set 0 b', s.count + 1, s.front⟩ : State E).buckets.length = s.buckets.length := List.length_set
      refine (set_paid (m := 0) hb k3 k2.le k1 hl.le ?_).mono fun K => ?_
      · have : n ≤ (s.buckets.set 0 b').length - 1 := k4
        rw [List.length_set] at this
        omega
      · omega
  · have hless : b.es.length + 1 ≤ c.minBucketSize := by
      have := hbo.fits
      omega
    refine .bind ((searchT_costs e hless).mono fun p n _ hn => ?_)
    rcases p with i | i
    · refine .ite (fun _ => .liftBind fun b' hp => (keyIncreasedTr_costs _ 0 (hset b' (s.count + 1))).mono
        fun s' m _ k => ?_) fun _ => .liftBind fun b' hp => .lift fun s' hs' => ?_
      · obtain ⟨k1, k2⟩ := k
        have k3 : m ≤ (s.buckets.set 0 b').length - 1 := k2
        rw [List.length_set] at k3
        exact set_paid hb (k1.ok (hset b' _)) k1.count.le k1.buckets (pushBack_len hp).1.le (by omega)
      · cases hs'
        exact set_paid hb (hset b' _) le_rfl rfl (insertAtNotEnd_len hp).1.le (by omega)
    · refine .liftBind fun m _ => .liftBind fun b' hp => .lift fun s' hs' => ?_
      cases hs'
      exact set_paid hb (hset b' _) (by simp only; omega) rfl (by have := (setEntry_len hp).1; omega) (by omega)

theorem pushRangeT_costs (hsa : Sane c) (hc : c.Lawful) {w : E → M} (hw : c.Weight w) {T : M} {s : State E}
    (h : Inv c w T s) (hs : Slots c s) (l : List E) :
    Costs (pushRangeT c s l) (Paid c l.length (fun K => charge c K (.pushRange l)) s) := by
  have harr := h.good.data.arrive l.reverse
  have hcount := h.good.data.count
  simp only [List.length_nil, Nat.add_zero] at hcount
  simp only [List.length_reverse, wsum_reverse] at harr
  have hg0 : Good c w (T + wsum w l) l.reverse ⟨s.buckets, s.count + l.length, s.front⟩ := ⟨harr, h.good.front⟩
  obtain ⟨b, hb⟩ : ∃ b, s.buckets[0]? = some b := ⟨_, List.getElem?_eq_getElem h.good.data.length_pos⟩
  have h1 := h.good.data.cap_tmp hb
  have h2 := h.good.data.cap_pos hb
  have h3 : tmpCap ⟨s.buckets, s.count + l.length, s.front⟩ = tmpCap s := rfl
  obtain ⟨s₁, k1, k2, k3⟩ := growLoop_ok hsa (l.length * c.insertFactor) (l.length * c.insertFactor + 1)
    ⟨s.buckets, s.count + l.length, s.front⟩ hg0 (by omega) (by omega)
  have hgr := growLoop_grows _ _ _ _ k1
  refine .liftBind fun s₁' hs₁ => ?_
  cases k1.symm.trans hs₁
  refine .liftBind fun i hi => ?_
  obtain ⟨hil, hi1, hi2⟩ := List.findIdx?_eq_some_iff_getElem.mp hi
  have hbi : s₁.buckets[i]? = some s₁.buckets[i] := List.getElem?_eq_getElem hil
  have hi1 : l.length * c.insertFactor ≤ s₁.buckets[i].cap := by simpa using hi1
  have hfit : l.length ≤ s₁.buckets[i].cap := (Nat.le_mul_of_pos_right _ hsa.factor).trans hi1
  have hX : s₁.buckets[i].cap ≤ c.minBucketSize + c.geoBase * (l.length * c.insertFactor) := by
    rcases i with - | i
    · rw [k2.geo 0 _ hbi, pow_zero, Nat.mul_one]
      exact Nat.le_add_right _ _
    · have hi3 : s₁.buckets[i].cap < l.length * c.insertFactor := by
        have := hi2 i (Nat.lt_succ_self i)
        simpa using this
      have := k2.geo.next (List.getElem?_eq_getElem (by omega)) hbi
      rw [this]
      exact (Nat.mul_le_mul_left _ hi3.le).trans (Nat.le_add_left _ _)
  refine (insertT_costs hsa hc hw (X := c.minBucketSize + c.geoBase * (l.length * c.insertFactor)) k2
    (hgr.slots hs) hbi (by simpa using hfit) (fun hh => hh.trans hX)).mono fun s' n _ k => ?_
  obtain ⟨m1, m2, m3, m4, m5⟩ := k
  refine ⟨m1, m2.trans hgr.count.le, hgr.le.trans m3, fun Z hZ hz => m4 Z ?_ ?_, fun K hK => ?_⟩
  · refine growLoop_wide (Z := Z) ?_ _ _ _ hg0.geo ?_ hZ k1
    · refine le_trans ?_ hz
      rw [Nat.mul_comm]
      exact Nat.mul_le_mul_left _ (Nat.le_add_left _ _)
    · exact List.ne_nil_of_length_pos h.good.data.length_pos
  · have e1 : (flat s₁.buckets).length = (flat s.buckets).length := by
      obtain ⟨bs, b1, b2⟩ := hgr.buckets
      rw [b1]
      have : flat bs = [] := by rw [flat, List.flatMap_eq_nil_iff]; exact b2
      simp only [flat, List.flatMap_append, List.length_append] at this ⊢
      rw [this]; rfl
    have := Nat.le_mul_of_pos_left (s.count + l.length) hsa.factor
    rw [e1, List.length_reverse]
    omega
  · have h5 := m5 K hK
    rw [hgr.pot] at h5
    have h6 : (K - i) * l.length ≤ K * l.length := Nat.mul_le_mul_right _ (Nat.sub_le _ _)
    have h7 := Nat.mul_le_mul_left (c.geoBase + 1) h6
    simp only [List.length_reverse, Nat.mul_add] at h5
    have h8 : charge c K (.pushRange l) = c.minBucketSize + c.geoBase * (l.length * c.insertFactor) + c.geoBase * l.length +
        (c.geoBase + 1) * (K * l.length) + 2 * (K - 1) := by
      simp only [charge, entryCharge]
      ring
    simp only [h8]
    omega

theorem clear_paid {s : State E} (hs : Slots c s) : Paid c 0 (fun _ => 0) s (clear c s) 0 where
  slots ht := by
    show (frontClear c s.front).slots.length ≤ (s.buckets.map Bucket.clear).length
    rw [List.length_map, frontClear, if_pos ht]
    exact hs ht
  count := Nat.zero_le _
  len := by simp [clear]
  wide _ hZ _ := hZ.same (by simp [clear])
  cost K hK := by
    have : pot K (s.buckets.map Bucket.clear) = 0 := by
      generalize s.buckets = bs
      induction bs generalizing K with
      | nil => rfl
      | cons b bs ih =>
        rw [List.map_cons, pot]
        have : pot (K - 1) (List.map Bucket.clear bs) = 0 := by
          clear hK
          generalize K - 1 = k
          clear ih K
          induction bs generalizing k with
          | nil => rfl
          | cons b bs ih => rw [List.map_cons, pot, ih]; rfl
        rw [this]; rfl
    show 0 + (c.geoBase + 1) * pot K (s.buckets.map Bucket.clear) ≤ _
    rw [this]
    omega

theorem stepT_costs (hsa : Sane c) (hc : c.Lawful) {w : E → M} (hw : c.Weight w) {T : M} {s : State E}
    (h : Inv c w T s) (hs : Slots c s) (op : PQOp E) :
    Costs (stepT c s op) (fun r n => Paid c op.pushed.length (fun K => charge c K op) s r.2 n) := by
  cases op with
  | push e =>
    refine .bind ((pushT_costs hsa hc hw h hs e).mono fun s' n _ k => .lift fun r hr => ?_)
    cases hr; exact k
  | pushRange l =>
    refine .bind ((pushRangeT_costs hsa hc hw h hs l).mono fun s' n _ k => .lift fun r hr => ?_)
    cases hr; exact k
  | top =>
    refine .bind ((topT_costs s).mono fun s' n _ k => .lift fun r hr => ?_)
    cases hr; exact k.1.paid hs k.2
  | pop =>
    refine .bind ((popT_costs s hs).mono fun s' n _ k => .lift fun r hr => ?_)
    cases hr; exact k.1.paid hs k.2
  | decreaseTop e =>
    refine .bind (.bind ((popT_costs s hs).mono fun r n hp k => ?_))
    have hpop : pop c s = some r := (pop_sim c c.lt c.eq s fun _ _ => ⟨rfl, rfl⟩).trans hp
    have hne : flat s.buckets ≠ [] := by
      intro he
      have : step c s .pop = none := step_undefined h.good.front h.cache .pop trivial he
      rw [step, hpop] at this
      cases this
    obtain ⟨x, s₁, s₂, T', q1, -, q3, -⟩ := pop_ok hc hw h hne
    rw [hpop] at q1
    cases q1
    refine (pushT_costs hsa hc hw q3 (k.1.slots hs) e).mono fun s' m _ k' => .lift fun r hr => ?_
    cases hr
    refine ⟨k'.slots, k'.count.trans ?_, k.1.len.ge.trans k'.len, fun Z hZ hz => k'.wide Z (hZ.same k.1.len) ?_,
      fun K hK => ?_⟩
    · exact Nat.add_le_add_right k.1.count 1
    · exact (Nat.mul_le_mul_left _ (Nat.add_le_add_right k.1.count 1)).trans hz
    · have h1 := k'.cost K hK
      have h2 := Nat.mul_le_mul_left (c.geoBase + 1) (k.1.pot K)
      have h3 := k.2
      have h4 := k.1.len
      have h5 := k'.len
      simp only [charge]
      simp only at h1 h2 h4 h5 hK
      omega
  | clear => exact .lift fun r hr => by cases hr; exact clear_paid hs

/-! ## Histories -/

theorem init_start : Slots c (impl c).init ∧ (∀ Z, Wide c Z (impl c).init) ∧ (∀ K, pot K (impl c).init.buckets = 0) ∧
    (impl c).init.count = 0 := by
  show Slots c ((mk c).getD ⟨[], 0, ⟨none, [], 0, []⟩⟩) ∧ (∀ Z, Wide c Z ((mk c).getD ⟨[], 0, ⟨none, [], 0, []⟩⟩)) ∧
    (∀ K, pot K ((mk c).getD ⟨[], 0, ⟨none, [], 0, []⟩⟩).buckets = 0) ∧
    ((mk c).getD ⟨[], 0, ⟨none, [], 0, []⟩⟩).count = 0
  rcases hm : mk c with - | s
  · exact ⟨fun _ => le_rfl, fun Z k hk => by simp at hk, fun K => rfl, rfl⟩
  · obtain ⟨hg, hl⟩ := addBucket_grows hm
    refine ⟨hg.slots fun _ => le_rfl, fun Z k hk => ?_, fun K => hg.pot K, hg.count⟩
    rw [Option.getD_some, hl] at hk
    simp at hk

theorem run_costs (hsa : Sane c) (hc : c.Lawful) {w : E → M} (hw : c.Weight w) : ∀ (ops : List (PQOp E)) (s : State E)
    (outs : List (Option E)) (s' : State E), Inv c w (wsum w (flat s.buckets)) s → Slots c s →
    (∀ op ∈ ops, Allowed c op) → (impl c).run s ops = some (outs, s') →
    s.buckets.length ≤ s'.buckets.length ∧ Slots c s' ∧
    (∀ Z, Wide c Z s → c.insertFactor * (s.count + PQOp.pushes ops) ≤ Z → Wide c Z s') ∧
    ∀ K, s'.buckets.length ≤ K → ((impl c).runCompared (compared c) s ops).length + (c.geoBase + 1) * pot K s'.buckets ≤
      (c.geoBase + 1) * pot K s.buckets + charges c K ops := by
  intro ops
  induction ops with
  | nil =>
    intro s outs s' _ hs _ hr
    simp only [PQImpl.run] at hr
    cases hr
    exact ⟨le_rfl, hs, fun Z hZ _ => hZ, fun K _ => by simp [PQImpl.runCompared, charges]⟩
  | cons op ops ih =>
    intro s outs s' h hs ha hr
    simp only [PQImpl.run] at hr
    split at hr
    · cases hr
    · rename_i o s₁ h1
      split at hr
      · cases hr
      · rename_i os s₂ h2
        cases hr
        have h3 : (impl c).run s [op] = some ([o], s₁) := by simp only [PQImpl.run, h1]
        have hi := reach hsa hc hw [op] s _ _ h (by simpa using ha op List.mem_cons_self) h3
        have h1' : step c s op = some (o, s₁) := h1
        rw [step_eq] at h1'
        have hp := stepT_costs hsa hc hw h hs op _ h1'
        simp only at hp
        obtain ⟨k1, k0, k2, k3⟩ := ih s₁ os s' hi hp.slots (fun o ho => ha o (List.mem_cons_of_mem _ ho)) h2
        refine ⟨hp.len.trans k1, k0, fun Z hZ hz => k2 Z (hp.wide Z hZ (le_trans ?_ hz)) (le_trans ?_ hz), fun K hK => ?_⟩
        · refine Nat.mul_le_mul_left _ ?_
          simp only [PQOp.pushes, List.map_cons, List.sum_cons]
          omega
        · refine Nat.mul_le_mul_left _ ?_
          have := hp.count
          simp only [PQOp.pushes, List.map_cons, List.sum_cons]
          omega
        · have h4 := k3 K hK
          have h5 := hp.cost K (k1.trans hK)
          have e : (impl c).runCompared (compared c) s (op :: ops) =
              compared c s op ++ (impl c).runCompared (compared c) s₁ ops := by
            simp only [PQImpl.runCompared, h1]
          rw [e, List.length_append]
          simp only [charges, List.map_cons, List.sum_cons, compared] at h4 h5 ⊢
          omega

theorem topStep_costs (s : State E) : Costs (stepT c s .top) (fun _ n => n ≤ s.buckets.length - 1) :=
  .bind ((topT_costs s).mono fun _ _ _ k => .lift fun _ _ => k.2)

theorem popStep_costs (s : State E) (hs : Slots c s) : Costs (stepT c s .pop) (fun _ n => n ≤ s.buckets.length - 1) :=
  .bind ((popT_costs s hs).mono fun _ _ _ k => .lift fun _ _ => k.2)

theorem charge_mono {K K' : ℕ} (h : K ≤ K') (op : PQOp E) : charge c K op ≤ charge c K' op := by
  have h1 : entryCharge c K ≤ entryCharge c K' := Nat.add_le_add_left (Nat.mul_le_mul_left _ h) _
  cases op with
  | pushRange l =>
    have h2 := Nat.mul_le_mul_right l.length (Nat.add_le_add_left h1 (c.geoBase * c.insertFactor))
    simp only [charge]
    omega
  | _ => simp only [charge]; omega

theorem charges_mono {K K' : ℕ} (h : K ≤ K') (ops : List (PQOp E)) : charges c K ops ≤ charges c K' ops := by
  induction ops with
  | nil => exact le_rfl
  | cons op ops ih =>
    simp only [charges, List.map_cons, List.sum_cons] at ih ⊢
    exact Nat.add_le_add (charge_mono h op) ih

end Verif.Geobucket
