import Verif.GeoAssert
import Verif.GeoAssertSpec
import Verif.GeobucketProofs
import Verif.GeoDedupProofs

/-!
# Helper lemmas about debug builds of `Geobucket`
-/

namespace Verif.Geobucket

open Dbg

variable {E M : Type} [AddCommMonoid M] {c : Conf E}

/-! ## `isValid` -/

theorem ascending_of {l : List E} (h : Asc c l) : ascending c l = true := by
  induction l with
  | nil => rfl
  | cons x l ih =>
    cases l with
    | nil => rfl
    | cons y l =>
      obtain ⟨h1, h2⟩ := List.pairwise_cons.mp h
      rw [ascending, ih h2, h1 y List.mem_cons_self]
      rfl

theorem stdEqual_self (l : List ℕ) : stdEqual l l = ok () := by
  induction l with
  | nil => rfl
  | cons x l ih =>
    rw [stdEqual, assert_of (by simp), ok_bind, ih]

/-- The numbers of the buckets from `i` on, `n` of them, that are not empty. -/
def liveFrom (bs : List (Bucket E)) (n i : ℕ) : List ℕ :=
  (List.range' i n).filter (fun j => !(esAt bs j).isEmpty)

theorem frontPosValid_ok {s : State E} {live : List ℕ} (hf : Fr c s.buckets s.front live) :
    ∀ n i, i + n = s.buckets.length → frontPosValid s n i = ok (liveFrom s.buckets n i) := by
  intro n
  induction n with
  | zero => intro i _; rfl
  | succ n ih =>
    intro i hi
    obtain ⟨b, hb, eb⟩ := esAt_exists (bs := s.buckets) (i := i) (by omega)
    rw [frontPosValid, hb, lift_some, ok_bind]
    have hlive : liveFrom s.buckets (n + 1) i =
        if b.es = [] then liveFrom s.buckets n (i + 1) else i :: liveFrom s.buckets n (i + 1) := by
      rw [liveFrom, List.range'_succ, List.filter_cons, eb]
      by_cases hbn : b.es = []
      · rw [if_pos hbn, if_neg (by simp [hbn])]
        rfl
      · rw [if_neg hbn, if_pos (by simpa using hbn)]
        rfl
    by_cases hbn : b.es = []
    · have hp := hf.link.null i (by rw [hf.len]; omega) (by rw [hf.mem, eb]; simpa using hbn)
      rw [hp, lift_some, ok_bind, if_pos hbn, assert_of (by simp), ok_bind, ih (i + 1) (by omega), hlive, if_pos hbn]
    · obtain ⟨p, p1, p2, p3⟩ := hf.link.mem_pos ((hf.mem i).mpr (by rw [eb]; exact hbn))
      rw [p3, lift_some, ok_bind, if_neg hbn, assert_of (by simp), ok_bind]
      simp only [hf.link.rd p2, lift_some, ok_bind]
      rw [assert_of (by simp), ok_bind, ih (i + 1) (by omega), ok_bind, hlive, if_neg hbn]

theorem frontCopy_ok {f : Front} {live : List ℕ} (h : Link f live) :
    ∀ n i, i + n = live.length → frontCopy f n i = ok (live.drop i) := by
  intro n
  induction n with
  | zero =>
    intro i hi
    rw [frontCopy, List.drop_eq_nil_of_le (by omega)]
  | succ n ih =>
    intro i hi
    have hl : i < live.length := by omega
    rw [frontCopy, h.rd (List.getElem?_eq_getElem hl), lift_some, ok_bind, ih (i + 1) (by omega), ok_bind,
      List.drop_eq_getElem_cons hl]

theorem backD_ok {bs : List (Bucket E)} (hok : ∀ b ∈ bs, BOk c b) {i : ℕ} (h : esAt bs i ≠ []) :
    ∃ x, backD c bs i = ok x ∧ (esAt bs i).getLast? = some x := by
  obtain ⟨b, hb, eb⟩ := esAt_ne h
  rw [eb] at h ⊢
  obtain ⟨x, hx⟩ := last_of_ne h
  refine ⟨x, ?_, hx⟩
  rw [backD, hb, lift_some, ok_bind, assert_of (by simpa using h), ok_bind,
    getBack_eq (hok b (List.mem_of_getElem? hb)), hx, lift_some]

theorem frontSorted_ok {bs : List (Bucket E)} (hok : ∀ b ∈ bs, BOk c b) :
    ∀ live : List ℕ, (∀ i ∈ live, esAt bs i ≠ []) → live.Pairwise (geK c bs) → frontSorted c bs live = ok () := by
  intro live
  induction live with
  | nil => intro _ _; rfl
  | cons i live ih =>
    intro hne ho
    cases live with
    | nil => rfl
    | cons j live =>
      obtain ⟨h1, h2⟩ := List.pairwise_cons.mp ho
      obtain ⟨x, e1, e2⟩ := backD_ok hok (hne i List.mem_cons_self)
      obtain ⟨y, e3, e4⟩ := backD_ok hok (hne j (by simp))
      rw [frontSorted, e1, ok_bind, e3, ok_bind, assert_of (by simp [h1 j List.mem_cons_self x y e2 e4]), ok_bind]
      exact ih (fun k hk => hne k (List.mem_cons_of_mem _ hk)) h2

theorem cacheMax_ok {m : E} : ∀ bs : List (Bucket E), (∀ b ∈ bs, BOk c b) →
    (∀ b ∈ bs, ∀ y, b.es.getLast? = some y → c.lt m y = false) → cacheMax c m bs = ok () := by
  intro bs
  induction bs with
  | nil => intro _ _; rfl
  | cons b bs ih =>
    intro hok h
    have ih' := ih (fun b hb => hok b (List.mem_cons_of_mem _ hb)) (fun b hb => h b (List.mem_cons_of_mem _ hb))
    rw [cacheMax]
    by_cases hbn : b.es = []
    · rw [if_pos hbn, ih']
    · obtain ⟨y, hy⟩ := last_of_ne hbn
      rw [if_neg hbn, getBack_eq (hok b List.mem_cons_self), hy, lift_some, ok_bind,
        assert_of (by simp [h b List.mem_cons_self y hy]), ok_bind, ih']

theorem sort_live {bs : List (Bucket E)} {live : List ℕ} (hn : live.Nodup)
    (hm : ∀ b, b ∈ live ↔ esAt bs b ≠ []) :
    live.insertionSort (· ≤ ·) = liveFrom bs bs.length 0 := by
  have hlt : ∀ {b}, esAt bs b ≠ [] → b < bs.length := by
    intro b hb
    obtain ⟨x, hx, _⟩ := esAt_ne hb
    exact (List.getElem?_eq_some_iff.mp hx).1
  have hs : (liveFrom bs bs.length 0).Pairwise (· < ·) := List.Pairwise.filter _ List.pairwise_lt_range'
  refine List.Perm.eq_of_pairwise' (r := (· ≤ ·)) (List.pairwise_insertionSort _ _)
    (hs.imp (fun h => Nat.le_of_lt h)) ?_
  refine (List.perm_insertionSort _ _).trans ?_
  refine (List.perm_ext_iff_of_nodup hn (hs.imp (fun h => Nat.ne_of_lt h))).mpr ?_
  intro b
  rw [hm, liveFrom, List.mem_filter]
  constructor
  · intro h
    exact ⟨by simpa using hlt h, by simpa using h⟩
  · intro h
    simpa using h.2

theorem frontIsValid_ok {s : State E} (hok : ∀ b ∈ s.buckets, BOk c b) (hf : FrontOk c s.buckets s.front)
    (hca : CacheOk c s) : frontIsValid c s = ok () := by
  cases ht : c.trackFront with
  | true =>
    obtain ⟨live, h⟩ := hf ht
    rw [frontIsValid, if_pos ht, frontPosValid_ok h _ 0 (by omega), ok_bind, frontCopy_ok h.link _ 0 (by
      rw [h.link.fend]; omega), ok_bind, List.drop_zero, sort_live h.link.nodup h.mem, stdEqual_self, ok_bind]
    exact frontSorted_ok hok live (fun i hi => (h.mem i).mp hi) h.ord
  | false =>
    rw [frontIsValid, if_neg (by simp [ht])]
    cases hc : s.front.cached with
    | none => rfl
    | some m =>
      obtain ⟨h1, h2⟩ := hca ht m hc
      obtain ⟨x, e1, e2⟩ := backD_ok hok h1
      simp only [e1, ok_bind]
      refine cacheMax_ok s.buckets hok ?_
      intro b hb y hy
      obtain ⟨j, hj⟩ := List.mem_iff_getElem?.mp hb
      exact h2 j x y e2 (by rw [esAt_some hj]; exact hy)

theorem sum_flat (bs : List (Bucket E)) : (bs.map (fun b => b.es.length)).sum = (flat bs).length := by
  rw [List.length_flatMap]

theorem isValid_ok (hs : Sane c) {w : E → M} {T : M} {s : State E} (h : Inv c w T s) :
    isValid c s = ok () := by
  obtain ⟨b, hb⟩ : ∃ b, s.buckets[0]? = some b := ⟨_, List.getElem?_eq_getElem h.good.data.length_pos⟩
  have hcap := h.good.data.cap_pos hb
  have hcount := h.good.data.count
  have hall : s.buckets.all (fun b => ascending c b.es) = true := by
    rw [List.all_eq_true]
    intro b hb
    exact ascending_of (h.good.data.ok b hb).asc
  have hsum : ((s.buckets.map (fun b => b.es.length)).sum == s.count) = true := by
    rw [beq_iff_eq, sum_flat, hcount]
    simp
  have hfront := frontIsValid_ok h.good.data.ok h.good.front h.cache
  obtain ⟨bs, n, f⟩ := s
  cases bs with
  | nil => simp at hb
  | cons b' bs =>
    simp at hb
    subst hb
    rw [isValid, assert_of (by simpa using hs.base), ok_bind]
    simp only [firstBucket, ok_bind]
    rw [assert_of (by simpa using hcap), ok_bind, assert_of hall, ok_bind, assert_of hsum, ok_bind, hfront]

/-! ## The front -/

theorem frontInsertD_ok {s s' : State E} {bs : List (Bucket E)} {b : ℕ} (hf : FrontOk c bs s.front)
    (hbl : b < bs.length) (hb : esAt bs b = [])
    (hb' : c.trackFront = true → esAt s.buckets b ≠ []) (h : frontInsert c s b = some s') :
    frontInsertD c s b = ok s' := by
  cases ht : c.trackFront with
  | false => rw [frontInsertD, if_neg (by simp [ht]), h, lift_some]
  | true =>
    obtain ⟨live, hl⟩ := hf ht
    have hp := hl.link.null b (by rw [hl.len]; exact hbl) (by rw [hl.mem]; simpa using hb)
    obtain ⟨bb, e1, e2⟩ := esAt_ne (hb' ht)
    rw [frontInsertD, if_pos ht, hp, lift_some, ok_bind, assert_of (by simp), ok_bind, e1, lift_some, ok_bind,
      assert_of (by simpa [e2] using hb' ht), ok_bind, h, lift_some]

theorem frontRemoveD_ok {s s' : State E} {b : ℕ} {bb : Bucket E} (hb : s.buckets[b]? = some bb) (he : bb.es = [])
    (h : frontRemove c s b = some s') : frontRemoveD c s b = ok s' := by
  cases ht : c.trackFront with
  | false => rw [frontRemoveD, if_neg (by simp [ht]), h, lift_some]
  | true =>
    have : ∃ p, s.front.pos[b]? = some (.slot p) := by
      rw [frontRemove, if_pos ht, removeT] at h
      split at h
      · exact ⟨_, by assumption⟩
      · cases h
    obtain ⟨p, hp⟩ := this
    rw [frontRemoveD, if_pos ht, hp, lift_some, ok_bind, assert_of (by simp), ok_bind, hb, lift_some, ok_bind,
      assert_of (by simp [he]), ok_bind, h, lift_some]

theorem keyDecreasedD_ok {s s' : State E} {b : ℕ} {bb : Bucket E} (hb : s.buckets[b]? = some bb)
    (h : keyDecreased c s b = some s') : keyDecreasedD c s b = ok s' := by
  rw [keyDecreasedD, hb, lift_some, ok_bind]
  by_cases he : bb.es = []
  · rw [if_pos he]
    refine frontRemoveD_ok hb he ?_
    rw [keyDecreased] at h
    rw [frontRemove]
    cases ht : c.trackFront with
    | false => rw [ht] at h; exact h
    | true => rw [ht] at h; simpa [hb, he] using h
  · rw [if_neg he, h, lift_some]

theorem getMaxD_ok {s : State E} {r : ℕ × State E} (h : getMax c s = some r) : getMaxD c s = ok r := by
  rw [getMaxD, h, lift_some]
  rw [getMax] at h
  by_cases ht : c.trackFront = true
  · rw [if_pos ht] at h ⊢
    have : s.front.fend ≠ 0 := by
      intro h0
      rw [if_pos h0] at h
      cases h
    rw [assert_of (by simpa using this)]
    rfl
  · rw [if_neg ht] at h ⊢
    cases hc : s.front.cached with
    | some m => rfl
    | none =>
      rw [hc] at h
      simp only at h
      cases hfi : s.buckets.findIdx? (fun b => !b.es.isEmpty) with
      | none => rw [hfi] at h; cases h
      | some m =>
        obtain ⟨h1, h2, _⟩ := List.findIdx?_eq_some_iff_getElem.mp hfi
        have : s.buckets.any (fun b => !b.es.isEmpty) = true :=
          List.any_eq_true.mpr ⟨_, List.getElem_mem h1, h2⟩
        simp only [Option.isNone_none, if_true, this, assert_true]
        rfl

theorem getMaxD_failed {w : E → M} {T : M} {s : State E} (h : Inv c w T s) (he : flat s.buckets = []) :
    getMaxD c s = failed := by
  have hall : ∀ j, esAt s.buckets j = [] := by
    intro j
    by_contra hj
    obtain ⟨x, hx⟩ := List.exists_mem_of_ne_nil _ hj
    have : x ∈ flat s.buckets := mem_flat.mpr ⟨j, hx⟩
    rw [he] at this
    cases this
  rw [getMaxD]
  by_cases ht : c.trackFront = true
  · obtain ⟨live, hf⟩ := h.good.front ht
    have : live = [] := by
      by_contra hl
      obtain ⟨b, hb⟩ := List.exists_mem_of_ne_nil _ hl
      exact (hf.mem b).mp hb (hall b)
    subst this
    rw [if_pos ht, hf.link.fend]
    rfl
  · rw [if_neg ht]
    cases hc : s.front.cached with
    | some m => exact absurd (hall m) (h.cache (by simpa using ht) m hc).1
    | none =>
      have : s.buckets.any (fun b => !b.es.isEmpty) = false := by
        rw [List.any_eq_false]
        intro b hb
        obtain ⟨i, hi⟩ := List.mem_iff_getElem?.mp hb
        have := hall i
        rw [esAt_some hi] at this
        simp [this]
      simp only [Option.isNone_none, if_true, this, assert_false]
      rfl

/-! ## Buckets -/

theorem addBucketD_ok {w : E → M} {s s' : State E} {T : M} {pend : List E} (h : Good c w T pend s)
    (h' : addBucket c s = some s') : addBucketD c s = ok s' := by
  have h1 : (!c.trackFront || decide (s.buckets.length + 1 ≥ s.front.fend)) = true := by
    cases ht : c.trackFront with
    | false => rfl
    | true =>
      obtain ⟨live, hf⟩ := h.front ht
      have hle : live.length ≤ s.buckets.length := by
        apply length_le_of_nodup hf.link.nodup
        intro x hx
        rw [← hf.len]
        exact hf.link.mem_lt hx
      have := hf.link.fend
      simp
      omega
  rw [addBucketD, assert_of h1, ok_bind, h', lift_some, ok_bind, assert_of (by simp [finalOffset, required]), ok_bind]

theorem mergeToNonEmptyD_ok {s s' : State E} {l : List E} {into : ℕ} {b : Bucket E}
    (hb : s.buckets[into]? = some b) (hne : b.es ≠ []) (hl : l ≠ []) (hfit : l.length ≤ b.cap)
    (h : mergeToNonEmpty c s into l = some s') : mergeToNonEmptyD c s into l = ok s' := by
  rw [mergeToNonEmptyD, hb, lift_some, ok_bind, assert_of (by simpa using hne), ok_bind,
    assert_of (by simpa using hl), ok_bind, assert_of (by simpa using hfit), ok_bind, h, lift_some]

theorem swapKeys_buckets {s s' : State E} {a b : ℕ} (h : swapKeys c s a b = some s') : s'.buckets = s.buckets := by
  rw [swapKeys] at h
  split at h
  · obtain ⟨_, _, h⟩ := Option.bind_eq_some_iff.mp h
    obtain ⟨_, _, h⟩ := Option.bind_eq_some_iff.mp h
    obtain ⟨_, _, h⟩ := Option.bind_eq_some_iff.mp h
    obtain ⟨_, _, h⟩ := Option.bind_eq_some_iff.mp h
    obtain ⟨_, _, h⟩ := Option.bind_eq_some_iff.mp h
    obtain ⟨_, _, h⟩ := Option.bind_eq_some_iff.mp h
    cases h
    rfl
  · cases h
    rfl

theorem mergeSwap_buckets {s s' : State E} {a b : ℕ} (h : mergeSwap c s a b = some s') : s'.buckets = s.buckets := by
  rw [mergeSwap] at h
  obtain ⟨sw, _, h⟩ := Option.bind_eq_some_iff.mp h
  cases sw with
  | true => exact swapKeys_buckets h
  | false => cases h; rfl

theorem mergeBuckets_eq (s : State E) (dst src : ℕ) : mergeBuckets c s dst src =
    (mergeSwap c s dst src).bind (fun s => (s.buckets[src]?).bind (fun fb =>
      (mergeToNonEmpty c s dst fb.es).bind (fun s => (s.buckets[src]?).bind (fun fb =>
        frontRemove c (s.setBucket src fb.clear) src)))) := by
  rw [mergeBuckets, mergeSwap]
  simp only [Option.bind_eq_bind, Option.bind_assoc]

theorem mergeBucketsD_ok {s s' : State E} {src dst : ℕ} {sb db : Bucket E} (hsd : src ≠ dst)
    (hs : s.buckets[src]? = some sb) (hd : s.buckets[dst]? = some db) (hsn : sb.es ≠ []) (hdn : db.es ≠ [])
    (hfit : db.es.length + sb.es.length ≤ db.cap) (h : mergeBuckets c s dst src = some s') :
    mergeBucketsD c s dst src = ok s' := by
  rw [mergeBuckets_eq] at h
  obtain ⟨s₁, e1, h⟩ := Option.bind_eq_some_iff.mp h
  have hb := mergeSwap_buckets e1
  obtain ⟨fb, e2, h⟩ := Option.bind_eq_some_iff.mp h
  obtain ⟨s₂, e3, h⟩ := Option.bind_eq_some_iff.mp h
  obtain ⟨fb', e4, h⟩ := Option.bind_eq_some_iff.mp h
  have hfb : fb = sb := by rw [hb, hs] at e2; cases e2; rfl
  subst hfb
  rw [mergeBucketsD, hd, lift_some, ok_bind, hs, lift_some, ok_bind, assert_of (by simpa using hdn), ok_bind,
    assert_of (by simpa using hsn), ok_bind, assert_of (by simpa using hsd.symm), ok_bind,
    assert_of (by simpa using hfit), ok_bind, e1, lift_some, ok_bind, e2, lift_some, ok_bind,
    mergeToNonEmptyD_ok (by rw [hb]; exact hd) hdn hsn (by omega) e3, ok_bind, e4, lift_some, ok_bind]
  refine frontRemoveD_ok (bb := fb'.clear) ?_ rfl h
  simp only [State.setBucket]
  rw [List.getElem?_set_self (List.getElem?_eq_some_iff.mp e4).1]

theorem mergeToEmptyD_ok {s s' : State E} {l : List E} {src dst : ℕ} {sb db : Bucket E} (hsd : src ≠ dst)
    (hs : s.buckets[src]? = some sb) (hd : s.buckets[dst]? = some db) (hsn : sb.es ≠ []) (hdn : db.es = [])
    (hl : l ≠ []) (hfit : l.length + sb.es.length ≤ db.cap) (h : mergeToEmpty c s dst src l = some s') :
    mergeToEmptyD c s dst src l = ok s' := by
  rw [mergeToEmptyD, hd, lift_some, ok_bind, hs, lift_some, ok_bind, assert_of (by simp [hdn]), ok_bind,
    assert_of (by simpa using hsn), ok_bind, assert_of (by simpa using hsd.symm), ok_bind,
    assert_of (by simpa using hl), ok_bind, assert_of (by simpa using hfit), ok_bind, h, lift_some]

theorem moveToEmptyD_ok {s s' : State E} {src dst : ℕ} {sb db : Bucket E} (hsd : src ≠ dst)
    (hs : s.buckets[src]? = some sb) (hd : s.buckets[dst]? = some db) (hsn : sb.es ≠ []) (hdn : db.es = [])
    (hfit : sb.es.length ≤ db.cap) (h : moveToEmpty c s dst src = some s') :
    moveToEmptyD c s dst src = ok s' := by
  rw [moveToEmptyD, hd, lift_some, ok_bind, hs, lift_some, ok_bind, assert_of (by simpa using hsd.symm), ok_bind,
    assert_of (by simp [hdn]), ok_bind, assert_of (by simpa using hsn), ok_bind,
    assert_of (by simpa using hfit), ok_bind, h, lift_some]

theorem assignNewD_ok {w : E → M} {s s' : State E} {T : M} {pend l : List E} {i : ℕ} {b : Bucket E}
    (hg : Good c w T pend s) (hb : s.buckets[i]? = some b) (hbn : b.es = []) (hl : l ≠ [])
    (h : assignNew c s i l = some s') : assignNewD c s i l = ok s' := by
  rw [assignNew] at h
  obtain ⟨bb, e1, h⟩ := Option.bind_eq_some_iff.mp h
  obtain ⟨b', e2, h⟩ := Option.bind_eq_some_iff.mp h
  have hlt := (List.getElem?_eq_some_iff.mp hb).1
  have hes : b'.es = l := by
    rw [Bucket.fill] at e2
    split at e2
    · cases e2; rfl
    · cases e2
  rw [assignNewD, e1, lift_some, ok_bind, e2, lift_some, ok_bind]
  refine frontInsertD_ok hg.front hlt (by rw [esAt_some hb]; exact hbn) ?_ h
  intro _
  simp only [State.setBucket]
  rw [esAt_set hlt, if_pos rfl, hes]
  exact hl

theorem mergeToTmpD_ok {s s' : State E} {l l' : List E} {i : ℕ}
    (h : mergeToTmp c s i l = some (l', s')) : mergeToTmpD c s i l = ok (l', s') := by
  rw [mergeToTmp] at h
  obtain ⟨cur, e1, h⟩ := Option.bind_eq_some_iff.mp h
  rw [mergeToTmpD, e1, lift_some, ok_bind]
  have hlt := (List.getElem?_eq_some_iff.mp e1).1
  simp only at h ⊢
  split at h
  · rename_i hle
    obtain ⟨s₁, e2, h⟩ := Option.bind_eq_some_iff.mp h
    rw [if_pos hle, frontRemoveD_ok (bb := cur.clear) (by
      simp only [State.setBucket]
      rw [List.getElem?_set_self hlt]) rfl e2, ok_bind]
    cases h
    rfl
  · cases h

/-! ## Without premerge -/

theorem reserveLoopD_ok (hs : Sane c) {w : E → M} {T : M} {pend : List E} :
    ∀ (n i acc : ℕ) (s s' : State E), Good c w T pend s → reserveLoop c n i acc s = some s' →
    reserveLoopD c n i acc s = ok s' := by
  intro n
  induction n with
  | zero => intro i acc s s' _ h; cases h
  | succ n ih =>
    intro i acc s s' hg h
    rw [reserveLoop] at h
    obtain ⟨s₁, e1, h⟩ := Option.bind_eq_some_iff.mp h
    obtain ⟨b, e2, h⟩ := Option.bind_eq_some_iff.mp h
    have hg₁ : growAtD c i s = ok s₁ ∧ Good c w T pend s₁ := by
      rw [growAtD]
      by_cases hi : i = s.buckets.length
      · rw [if_pos hi] at e1 ⊢
        obtain ⟨s₂, _, a1, a2, _⟩ := addBucket_ok hs hg
        rw [a1] at e1
        cases e1
        exact ⟨addBucketD_ok hg a1, a2⟩
      · rw [if_neg hi] at e1 ⊢
        cases e1
        exact ⟨rfl, hg⟩
    rw [reserveLoopD, hg₁.1, ok_bind, e2, lift_some, ok_bind]
    by_cases hf : acc + b.es.length ≤ b.cap
    · rw [if_pos hf] at h ⊢
      cases h
      rfl
    · rw [if_neg hf] at h ⊢
      exact ih _ _ _ _ hg₁.2 h

theorem merge_ne {l m : List E} (h : m ≠ []) : (merge c l m).1 ≠ [] := by
  cases l with
  | nil => rw [merge]; exact h
  | cons a l =>
    cases m with
    | nil => exact absurd rfl h
    | cons b m =>
      rw [merge]
      split
      · simp
      · split <;> simp

theorem mergeToTmp_ne {s s' : State E} {l l' : List E} {i : ℕ} {b : Bucket E} (hb : s.buckets[i]? = some b)
    (hbn : b.es ≠ []) (h : mergeToTmp c s i l = some (l', s')) : l' ≠ [] := by
  rw [mergeToTmp] at h
  obtain ⟨cur, e1, h⟩ := Option.bind_eq_some_iff.mp h
  rw [hb] at e1
  cases e1
  simp only at h
  split at h
  · obtain ⟨s₁, e2, h⟩ := Option.bind_eq_some_iff.mp h
    cases h
    exact merge_ne hbn
  · cases h

theorem cascadeLoopD_ok (hc : c.Lawful) {w : E → M} (hw : c.Weight w) {T : M} :
    ∀ (n i : ℕ) (l : List E) (s s' : State E) (b : Bucket E), Good c w T l s → s.buckets[i]? = some b →
    b.es ≠ [] → Asc c l → l ≠ [] → l.length ≤ b.cap → Room l.length (s.buckets.drop i) →
    cascadeLoop c n i l s = some s' → cascadeLoopD c n i l s = ok s' := by
  intro n
  induction n with
  | zero => intro i l s s' b _ _ _ _ _ _ _ h'; cases h'
  | succ n ih =>
    intro i l s s' b h hb hbn hl hln hfit hroom h'
    simp only [cascadeLoop, hb, Option.bind_eq_bind, Option.bind_some] at h'
    rw [cascadeLoopD, hb, lift_some, ok_bind]
    by_cases hf : l.length + b.es.length ≤ b.cap
    · rw [if_pos hf] at h' ⊢
      exact mergeToNonEmptyD_ok hb hbn hln hfit h'
    · rw [if_neg hf] at h' ⊢
      rw [drop_cons_of hb] at hroom
      have hroom' : Room (l.length + b.es.length) (s.buckets.drop (i + 1)) := by
        rcases hroom with h | h
        · exact absurd h hf
        · exact h
      obtain ⟨nb, hnb⟩ := hroom'.next
      have hdbl := h.data.cap_dbl hb hnb
      have hfits := (h.data.at_ok hb).fits
      simp only [hnb, Option.bind_some] at h'
      rw [assert_of (by simpa using (List.getElem?_eq_some_iff.mp hnb).1), ok_bind, hnb, lift_some, ok_bind]
      by_cases hne : nb.es = []
      · rw [if_pos hne] at h' ⊢
        exact mergeToEmptyD_ok (by omega) hb hnb hbn hne hln (by omega) h'
      · rw [if_neg hne] at h' ⊢
        obtain ⟨l', s₁, k1, k2, k3, k4, k5, k6⟩ := mergeToTmp_ok hc hw h hb hbn hl hnb hfit
        rw [k1] at h'
        simp only [Option.bind_some] at h'
        rw [mergeToTmpD_ok k1, ok_bind]
        refine ih (i + 1) l' s₁ s' nb k2 ?_ hne k4 (mergeToTmp_ne hb hbn k1) (by omega) ?_ h'
        · rw [k6, List.getElem?_set_ne (by omega)]; exact hnb
        · rw [k6, List.drop_set_of_lt (by omega)]
          exact hroom'.mono k5

theorem insertNoPremergeD_ok (hs : Sane c) (hc : c.Lawful) {w : E → M} (hw : c.Weight w) {T : M} {s s' : State E}
    {l : List E} {i : ℕ} {b : Bucket E} (h : Good c w T l s) (hb : s.buckets[i]? = some b)
    (hl : Asc c l) (hfit : l.length ≤ b.cap) (hne : l ≠ []) (h' : insertNoPremerge c s i l = some s') :
    insertNoPremergeD c s i l = ok s' := by
  simp only [insertNoPremerge, hb, Option.bind_eq_bind, Option.bind_some] at h'
  rw [insertNoPremergeD, assert_of (by simpa using List.length_pos_iff.mpr hne), ok_bind, hb, lift_some, ok_bind]
  have hfits := (h.data.at_ok hb).fits
  by_cases hbn : b.es = []
  · rw [if_pos hbn] at h' ⊢
    exact assignNewD_ok h hb hbn hne h'
  · rw [if_neg hbn] at h' ⊢
    by_cases hf : b.es.length + l.length ≤ b.cap
    · rw [if_pos hf] at h' ⊢
      exact mergeToNonEmptyD_ok hb hbn hne hfit h'
    · rw [if_neg hf] at h' ⊢
      obtain ⟨s₁, r1, r2, r3, r4⟩ := reserveLoop_ok hs (s.buckets.length + 1) i (b.es.length + l.length) s b h hb
        (by omega) (by omega)
      rw [r1] at h'
      have hb₁ := r3.get hb
      obtain ⟨nb, hnb⟩ := r4.next
      have hdbl := r2.data.cap_dbl hb₁ hnb
      simp only [Option.bind_some, hnb] at h'
      rw [reserveLoopD_ok hs _ _ _ _ _ h r1, ok_bind, assert_of (by
        simpa using (List.getElem?_eq_some_iff.mp hnb).1), ok_bind, hnb, lift_some, ok_bind]
      by_cases hnn : nb.es = []
      · rw [if_pos hnn] at h' ⊢
        exact mergeToEmptyD_ok (by omega) hb₁ hnb hbn hnn hne (by omega) h'
      · rw [if_neg hnn] at h' ⊢
        obtain ⟨l', s₂, k1, k2, k3, k4, k5, k6⟩ := mergeToTmp_ok hc hw r2 hb₁ hbn hl hnb hfit
        rw [k1] at h'
        simp only [Option.bind_some] at h'
        rw [mergeToTmpD_ok k1, ok_bind]
        refine cascadeLoopD_ok hc hw _ (i + 1) l' s₂ s' nb k2 ?_ hnn k4 (mergeToTmp_ne hb₁ hbn k1) (by omega) ?_ h'
        · rw [k6, List.getElem?_set_ne (by omega)]; exact hnb
        · rw [k6, List.drop_set_of_lt (by omega)]
          exact r4.mono (by omega)

/-! ## With premerge -/

theorem premergeRangeD_ok {w : E → M} {T : M} {pend : List E} {s : State E} (hg : Good c w T pend s) :
    ∀ (n r incoming : ℕ) (p : ℕ × State E), premergeRange c n r incoming s = some p →
    premergeRangeD c n r incoming s = ok p := by
  intro n
  induction n with
  | zero => intro r incoming p h; cases h
  | succ n ih =>
    intro r incoming p h
    rw [premergeRange] at h
    obtain ⟨b, e1, h⟩ := Option.bind_eq_some_iff.mp h
    rw [premergeRangeD, e1, lift_some, ok_bind]
    split at h
    · rename_i hf
      rw [if_pos hf]
      cases h
      rfl
    · rename_i hf
      rw [if_neg hf]
      split at h
      · rename_i hr
        rw [if_pos hr]
        obtain ⟨s₁, e2, rfl⟩ := Option.map_eq_some_iff.mp h
        rw [addBucketD_ok hg e2, ok_bind]
      · rename_i hr
        rw [if_neg hr]
        exact ih _ _ _ h

theorem moveLoopD_ok {w : E → M} {T : M} {pend : List E} :
    ∀ (n r : ℕ) (s s' : State E), Good c w T pend s → n ≤ r → r < s.buckets.length → esAt s.buckets r = [] →
    (∀ j, r - n ≤ j → j < r → esAt s.buckets j ≠ []) → moveLoop c n r s = some s' →
    moveLoopD c n r s = ok s' := by
  intro n
  induction n with
  | zero =>
    intro r s s' _ _ _ _ _ h
    cases h
    rfl
  | succ n ih =>
    intro r s s' h hnr hr he hne h'
    obtain ⟨db, hd, ed⟩ := esAt_exists hr
    obtain ⟨sb, hsb, es⟩ := esAt_ne (hne (r - 1) (by omega) (by omega))
    have hcap := h.data.cap_mono hsb 1 db (by rw [show r - 1 + 1 = r by omega]; exact hd)
    have hfits := (h.data.at_ok hsb).fits
    have hsn : sb.es ≠ [] := by rw [← es]; exact hne (r - 1) (by omega) (by omega)
    have hdn : db.es = [] := by rw [← ed]; exact he
    obtain ⟨s₁, k1, k2, k3, k4, k5⟩ := moveToEmpty_ok h (by omega : r - 1 ≠ r) hsb hd hsn hdn (by omega)
    simp only [moveLoop, k1, Option.bind_eq_bind, Option.bind_some] at h'
    rw [moveLoopD, moveToEmptyD_ok (by omega) hsb hd hsn hdn (by omega) k1, ok_bind]
    exact ih (r - 1) s₁ s' k2 (by omega) (by rw [k3.length]; omega) k4 (by
      intro j h1 h2
      rw [k5 j (by omega) (by omega)]
      exact hne j (by omega) (by omega)) h'

theorem premergesD_ok (hc : c.Lawful) {w : E → M} (hw : c.Weight w) {T : M} {pend : List E} {s s' : State E}
    {i r : ℕ} {rb : Bucket E} (h : Good c w T pend s) (hir : i < r) (hr : s.buckets[r]? = some rb)
    (hne : ∀ j, i ≤ j → j < r → esAt s.buckets j ≠ [])
    (hfit : rb.es.length + (esAt s.buckets (r - 1)).length ≤ rb.cap) (h' : premerges c s i r = some s') :
    premergesD c s i r = ok s' := by
  have hrl := (List.getElem?_eq_some_iff.mp hr).1
  rw [premerges, if_pos (by omega)] at h'
  rw [premergesD, if_pos (by omega), hr, lift_some, ok_bind]
  simp only [hr, Option.bind_eq_bind, Option.bind_some] at h'
  by_cases hrn : rb.es ≠ []
  · rw [if_pos hrn] at h' ⊢
    obtain ⟨sb, hsb, es⟩ := esAt_ne (hne (r - 1) (by omega) (by omega))
    have hsn : sb.es ≠ [] := by rw [← es]; exact hne (r - 1) (by omega) (by omega)
    have hf : rb.es.length + sb.es.length ≤ rb.cap := by rw [← es]; exact hfit
    obtain ⟨s₁, k1, k2, k3, k4, k5⟩ := mergeBuckets_ok hc hw h (by omega : r - 1 ≠ r) hsb hr hsn hrn hf
    simp only [k1, Option.bind_some] at h'
    rw [mergeBucketsD_ok (by omega) hsb hr hsn hrn hf k1, ok_bind]
    exact moveLoopD_ok (r - 1 - i) (r - 1) s₁ s' k2 (by omega) (by rw [k3.length]; omega) k4 (by
      intro j h1 h2
      rw [k5 j (by omega) (by omega)]
      exact hne j (by omega) (by omega)) h'
  · rw [if_neg hrn] at h' ⊢
    exact moveLoopD_ok (r - i) r s s' h (by omega) hrl (by
      rw [esAt_some hr]; simpa using hrn) (by
      intro j h1 h2
      exact hne j (by omega) h2) h'

theorem insertPremergeD_ok (hs : Sane c) (hc : c.Lawful) {w : E → M} (hw : c.Weight w) {T : M} {s s' : State E}
    {l : List E} {i : ℕ} {b : Bucket E} (h : Good c w T l s) (hb : s.buckets[i]? = some b)
    (hfit : l.length ≤ b.cap) (hne : l ≠ []) (h' : insertPremerge c s i l = some s') :
    insertPremergeD c s i l = ok s' := by
  obtain ⟨r, s₁, rb, k1, k2, k3, k4, k5, k6, k7, k8⟩ := premergeRange_ok hs (s.buckets.length + 1) i l.length s b h hb
    hfit (by omega)
  simp only [insertPremerge, k1, Option.bind_eq_bind, Option.bind_some] at h'
  rw [insertPremergeD, premergeRangeD_ok h _ _ _ _ k1, ok_bind]
  have hb₁ := k3.get hb
  by_cases hir : i = r
  · subst hir
    rw [hb₁] at k5
    cases k5
    simp only [premerges, ne_eq, not_true, if_false, Option.bind_some, hb₁] at h'
    simp only [premergesD, ne_eq, not_true, if_false, ok_bind, hb₁, lift_some]
    by_cases hbn : b.es = []
    · rw [if_pos hbn] at h' ⊢
      exact assignNewD_ok k2 hb₁ hbn hne h'
    · rw [if_neg hbn] at h' ⊢
      exact mergeToNonEmptyD_ok hb₁ hbn hne hfit h'
  · have hne₁ : ∀ j, i ≤ j → j < r → esAt s₁.buckets j ≠ [] := by
      intro j h1 h2
      rw [k3.esAt]
      exact k6 j h1 h2
    have hfit₁ : rb.es.length + (esAt s₁.buckets (r - 1)).length ≤ rb.cap := by
      rw [k3.esAt]
      exact k8 (by omega)
    obtain ⟨s₂, m1, m2, m3, m4⟩ := premerges_ok hc hw (i := i) (r := r) k2 (by omega) k5 hne₁ hfit₁
    obtain ⟨b₂, hb₂, hcap⟩ := m3.cap hb₁
    rw [esAt_some hb₂] at m4
    simp only [m1, Option.bind_some, hb₂] at h'
    rw [if_pos m4] at h'
    simp only
    rw [premergesD_ok hc hw k2 (by omega) k5 hne₁ hfit₁ m1, ok_bind, hb₂, lift_some, ok_bind, if_pos m4]
    exact assignNewD_ok m2 hb₂ m4 hne h'

theorem insertD_ok (hs : Sane c) (hc : c.Lawful) {w : E → M} (hw : c.Weight w) {T : M} {s s' : State E}
    {l : List E} {i : ℕ} {b : Bucket E} (h : Good c w T l s) (hb : s.buckets[i]? = some b)
    (hl : Asc c l) (hfit : l.length ≤ b.cap) (hne : l ≠ []) (h' : insert c s i l = some s') :
    insertD c s i l = ok s' := by
  rw [insert] at h'
  rw [insertD]
  split
  · rename_i hp
    rw [if_pos hp] at h'
    exact insertPremergeD_ok hs hc hw h hb hfit hne h'
  · rename_i hp
    rw [if_neg hp] at h'
    exact insertNoPremergeD_ok hs hc hw h hb hl hfit hne h'

/-! ## The calls -/

theorem pushD_ok (hs : Sane c) (hc : c.Lawful) {w : E → M} (hw : c.Weight w) {T : M} {s s' : State E}
    (h : Inv c w T s) (e : E) (h' : push c s e = some s') : pushD c s e = ok s' := by
  obtain ⟨b, hb⟩ : ∃ b, s.buckets[0]? = some b := ⟨_, List.getElem?_eq_getElem h.good.data.length_pos⟩
  have hlt := h.good.data.length_pos
  have hcap := h.good.data.cap_pos hb
  have harr := h.good.data.arrive [e]
  have hp := h'
  simp only [List.length_singleton, wsum_cons, wsum_nil, add_zero] at harr
  simp only [push, hb, Option.bind_eq_bind, Option.bind_some] at h'
  rw [pushD, hb, lift_some, ok_bind]
  by_cases hfull : b.es.length = b.cap
  · rw [if_pos hfull] at h' ⊢
    exact insertD_ok hs hc hw (T := T + w e) (s := ⟨s.buckets, s.count + 1, s.front⟩)
      (l := [e]) ⟨harr, h.good.front⟩ hb (List.pairwise_singleton _ _) (by simpa using hcap) (by simp) h'
  · rw [if_neg hfull] at h' ⊢
    by_cases hbn : b.es = []
    · rw [if_pos hbn] at h' ⊢
      obtain ⟨b', e1, h'⟩ := Option.bind_eq_some_iff.mp h'
      rw [e1, lift_some, ok_bind]
      refine frontInsertD_ok (bs := s.buckets) h.good.front hlt (by rw [esAt_some hb]; exact hbn) ?_ h'
      intro _
      simp only [State.setBucket]
      rw [esAt_set hlt, if_pos rfl]
      rw [Bucket.pushBack] at e1
      split at e1
      · cases e1
        simp
      · cases e1
    · rw [if_neg hbn, hp, lift_some]

theorem growLoopD_ok (hs : Sane c) {w : E → M} {T : M} {pend : List E} (adj : ℕ) :
    ∀ (n : ℕ) (s s' : State E), Good c w T pend s → growLoop c n adj s = some s' →
    growLoopD c n adj s = ok s' := by
  intro n
  induction n with
  | zero => intro s s' _ h; cases h
  | succ n ih =>
    intro s s' hg h
    rw [growLoop] at h
    rw [growLoopD]
    by_cases hadj : adj > tmpCap s
    · rw [if_pos hadj] at h ⊢
      obtain ⟨s₁, _, a1, a2, _⟩ := addBucket_ok hs hg
      rw [a1] at h
      rw [addBucketD_ok hg a1, ok_bind]
      exact ih _ _ a2 h
    · rw [if_neg hadj] at h ⊢
      cases h
      rfl

theorem RangeOk.descending (hc : c.Lawful) {l : List E} (h : RangeOk c l) : Descending c.lt l := by
  have h2 := h.2
  split at h2
  · refine h2.imp ?_
    intro x y hxy
    cases hyx : c.lt x y with
    | false => rfl
    | true =>
      have := hc.weak.trans _ _ _ hxy hyx
      rw [hc.weak.irrefl] at this
      cases this
  · exact h2

theorem rangeSorted_of {l : List E} (h : RangeOk c l) : rangeSorted c l = true := by
  have h2 := h.2
  clear h
  induction l with
  | nil => rfl
  | cons x l ih =>
    cases l with
    | nil => rfl
    | cons y l =>
      rw [rangeSorted]
      split at h2
      · rename_i hd
        obtain ⟨h3, h4⟩ := List.pairwise_cons.mp h2
        rw [ih (by rw [if_pos hd]; exact h4), if_pos hd, h3 y List.mem_cons_self]
        rfl
      · rename_i hd
        obtain ⟨h3, h4⟩ := List.pairwise_cons.mp h2
        rw [ih (by rw [if_neg hd]; exact h4), if_neg hd, h3 y List.mem_cons_self]
        rfl

theorem pushRangeD_ok (hs : Sane c) (hc : c.Lawful) {w : E → M} (hw : c.Weight w) {T : M} {s s' : State E}
    (h : Inv c w T s) {l : List E} (hl : RangeOk c l) (h' : pushRange c s l = some s') :
    pushRangeD c s l = ok s' := by
  have hinv : Inv c w (T + wsum w l) s' := by
    obtain ⟨s₂, k1, k2⟩ := pushRange_ok hs hc hw h (hl.descending hc) (fun _ => hl.1)
    rw [h'] at k1
    cases k1
    exact k2
  have harr := h.good.data.arrive l.reverse
  simp only [List.length_reverse, wsum_reverse] at harr
  obtain ⟨b, hb⟩ : ∃ b, s.buckets[0]? = some b := ⟨_, List.getElem?_eq_getElem h.good.data.length_pos⟩
  have hg : Good c w (T + wsum w l) l.reverse ⟨s.buckets, s.count + l.length, s.front⟩ := ⟨harr, h.good.front⟩
  obtain ⟨s₁, k1, k2, k3⟩ := growLoop_ok hs (l.length * c.insertFactor) (l.length * c.insertFactor + 1)
    ⟨s.buckets, s.count + l.length, s.front⟩ hg (by omega) (by
      have h3 : tmpCap ⟨s.buckets, s.count + l.length, s.front⟩ = tmpCap s := rfl
      have h1 := h.good.data.cap_tmp hb
      have h2 := h.good.data.cap_pos hb
      omega)
  simp only [pushRange, k1, Option.bind_eq_bind, Option.bind_some] at h'
  obtain ⟨i, hi, h'⟩ := Option.bind_eq_some_iff.mp h'
  obtain ⟨hil, hi1, _⟩ := List.findIdx?_eq_some_iff_getElem.mp hi
  have hfit : l.length ≤ s₁.buckets[i].cap := by
    have h6 : l.length * 1 ≤ l.length * c.insertFactor := Nat.mul_le_mul_left _ hs.factor
    simp at hi1
    omega
  have hins := insertD_ok hs hc hw k2 (List.getElem?_eq_getElem hil) (l := l.reverse)
    (by
      unfold Asc
      rw [List.pairwise_reverse]
      exact hl.descending hc)
    (by simpa using hfit) (by simpa using hl.1) h'
  rw [pushRangeD, assert_of (rangeSorted_of hl), ok_bind, growLoopD_ok hs _ _ _ _ hg k1, ok_bind, hi]
  simp only [caught, ok_bind]
  rw [hins, ok_bind, isValid_ok hs hinv, ok_bind]

theorem backD_of {bs : List (Bucket E)} {i : ℕ} {b : Bucket E} {x : E} (hb : bs[i]? = some b)
    (hx : b.getBack c = some x) : backD c bs i = ok x := by
  have : b.es ≠ [] := by
    intro e
    rw [Bucket.getBack, if_pos e] at hx
    cases hx
  rw [backD, hb, lift_some, ok_bind, assert_of (by simpa using this), ok_bind, hx, lift_some]

theorem popD_ok (hs : Sane c) (hc : c.Lawful) {w : E → M} (hw : c.Weight w) {T : M} {s : State E} {r : E × State E}
    (h : Inv c w T s) (hne : flat s.buckets ≠ []) (h' : pop c s = some r) : popD c s = ok r := by
  have hinv : ∃ T', Inv c w T' r.2 := by
    obtain ⟨x, s₁, s₂, T', k1, _, k2, _⟩ := pop_ok hc hw h hne
    rw [h'] at k1
    cases k1
    exact ⟨T', k2⟩
  obtain ⟨T', hinv⟩ := hinv
  rw [pop] at h'
  obtain ⟨m, e1, h'⟩ := Option.bind_eq_some_iff.mp h'
  obtain ⟨b, e2, h'⟩ := Option.bind_eq_some_iff.mp h'
  obtain ⟨x, e3, h'⟩ := Option.bind_eq_some_iff.mp h'
  obtain ⟨b', e4, h'⟩ := Option.bind_eq_some_iff.mp h'
  obtain ⟨s', e5, h'⟩ := Option.bind_eq_some_iff.mp h'
  cases h'
  rw [popD, getMaxD_ok e1, ok_bind, backD_of e2 e3, ok_bind, e2, lift_some, ok_bind, e4, lift_some, ok_bind,
    keyDecreasedD_ok (bb := b') (by
      simp only [State.setBucket]
      rw [List.getElem?_set_self (List.getElem?_eq_some_iff.mp e2).1]) e5, ok_bind, isValid_ok hs hinv, ok_bind]

theorem emptyD_ok {w : E → M} {T : M} {s : State E} (h : Inv c w T s) :
    emptyD s = ok (decide (flat s.buckets = [])) := by
  have hcount := h.good.data.count
  simp only [List.length_nil, Nat.add_zero] at hcount
  rw [emptyD, sizeD, assert_of (by rw [beq_iff_eq, sum_flat, hcount]), ok_bind, ok_bind, hcount]
  congr 1
  rw [Bool.eq_iff_iff, beq_iff_eq, decide_eq_true_iff, List.length_eq_zero_iff]

theorem topD_ok {w : E → M} {T : M} {s : State E} {r : E × State E}
    (h : Inv c w T s) (hne : flat s.buckets ≠ []) (h' : top c s = some r) : topD c s = ok r := by
  rw [top] at h'
  obtain ⟨m, e1, h'⟩ := Option.bind_eq_some_iff.mp h'
  obtain ⟨b, e2, h'⟩ := Option.bind_eq_some_iff.mp h'
  obtain ⟨x, e3, h'⟩ := Option.bind_eq_some_iff.mp h'
  cases h'
  rw [topD, emptyD_ok h, ok_bind, assert_of (by simpa using hne), ok_bind, getMaxD_ok e1, ok_bind,
    backD_of e2 e3, ok_bind]

theorem AllowedD.allowed (hc : c.Lawful) {op : PQOp E} (h : AllowedD c op) : Allowed c op := by
  cases op with
  | pushRange l => exact ⟨h.descending hc, fun _ => h.1⟩
  | clear => exact h
  | _ => trivial

/-- One call of the debug build. -/
theorem stepD_eq (hs : Sane c) (hc : c.Lawful) {w : E → M} (hw : c.Weight w) {s : State E}
    (h : Inv c w (wsum w (flat s.buckets)) s) (op : PQOp E) (ha : AllowedD c op) :
    stepD c s op = caught (step c s op) := by
  by_cases hn : op.needsTop ∧ flat s.buckets = []
  · rw [step_undefined h.good.front h.cache op hn.1 hn.2]
    have hg := getMaxD_failed h hn.2
    have he := emptyD_ok h
    rw [decide_eq_true hn.2] at he
    cases op with
    | push e => exact hn.1.elim
    | pushRange l => exact hn.1.elim
    | clear => exact hn.1.elim
    | top => simp only [stepD, topD, he, ok_bind, Bool.not_true, assert_false, failed_bind, caught]
    | pop => simp only [stepD, popD, hg, failed_bind, caught]
    | decreaseTop e => simp only [stepD, decreaseTopD, he, ok_bind, Bool.not_true, assert_false, failed_bind, caught]
  · have hne : op.needsTop → flat s.buckets ≠ [] := fun h1 h2 => hn ⟨h1, h2⟩
    cases op with
    | push e =>
      obtain ⟨s', k1, _⟩ := push_ok hs hc hw h e
      simp only [stepD, step, pushD_ok hs hc hw h e k1, k1, ok_bind, Option.map_some, caught]
    | pushRange l =>
      obtain ⟨s', k1, _⟩ := pushRange_ok hs hc hw h (ha.allowed hc).1 (ha.allowed hc).2
      simp only [stepD, step, pushRangeD_ok hs hc hw h ha k1, k1, ok_bind, Option.map_some, caught]
    | top =>
      obtain ⟨x, s', k1, _⟩ := top_ok hc hw h (hne trivial)
      simp only [stepD, step, topD_ok h (hne trivial) k1, k1, ok_bind, Option.map_some, caught]
    | pop =>
      obtain ⟨x, s', _, _, k1, _⟩ := pop_ok hc hw h (hne trivial)
      simp only [stepD, step, popD_ok hs hc hw h (hne trivial) k1, k1, ok_bind, Option.map_some, caught]
    | decreaseTop e =>
      obtain ⟨x, s', _, _, k1, _, k2, _⟩ := pop_ok hc hw h (hne trivial)
      obtain ⟨s₂, m1, _⟩ := push_ok hs hc hw k2 e
      have he := emptyD_ok h
      rw [decide_eq_false (hne trivial)] at he
      simp only [stepD, step, decreaseTopD, decreaseTop, he, popD_ok hs hc hw h (hne trivial) k1, k1,
        pushD_ok hs hc hw k2 e m1, m1, ok_bind, Option.map_some, caught, Bool.not_false, assert_true,
        Option.bind_eq_bind, Option.bind_some]
    | clear =>
      have k := (clear_spec_untracked ha h).1
      simp only [stepD, step, clearD, isValid_ok hs h, isValid_ok hs k, ok_bind, caught]

theorem mkD_some (hs : Sane c) : ∃ s : State E, mkD c = ok s ∧ mk c = some s := by
  obtain ⟨s, k1, k2, k3, _⟩ := mk_spec hs (fun _ : E => (0 : ℕ))
  refine ⟨s, ?_, k1⟩
  have hb : c.geoBase > 1 := hs.base
  rw [mkD, assert_of (by simpa using hb), ok_bind, addBucketD, assert_of (by simp), ok_bind]
  rw [mk] at k1
  rw [k1, lift_some, ok_bind, assert_of (by simp [finalOffset, required]), ok_bind, ok_bind,
    frontIsValid_ok k2.data.ok k2.front (fun h m hm => by rw [k3 h] at hm; cases hm), ok_bind]

theorem mkD_ok (hs : Sane c) : mkD c = ok (impl c).init := by
  obtain ⟨s, h1, h2⟩ := mkD_some hs
  have : (impl c).init = s := by simp [impl, h2]
  rw [this]
  exact h1

/-! ## Calls that an assertion stops -/

theorem frontPosValid_clear {s : State E} {live : List ℕ} (hf : Fr c s.buckets s.front live) :
    ∀ n i, i + n = s.buckets.length →
      ((∃ j, i ≤ j ∧ esAt s.buckets j ≠ []) → frontPosValid (clear c s) n i = failed) ∧
      ((¬ ∃ j, i ≤ j ∧ esAt s.buckets j ≠ []) → frontPosValid (clear c s) n i = ok []) := by
  have hpos : (clear c s).front.pos = s.front.pos := by
    simp only [clear, frontClear]
    split <;> rfl
  intro n
  induction n with
  | zero =>
    intro i hi
    refine ⟨?_, fun _ => rfl⟩
    rintro ⟨j, h1, h2⟩
    obtain ⟨b, hb, _⟩ := esAt_ne h2
    have := (List.getElem?_eq_some_iff.mp hb).1
    omega
  | succ n ih =>
    intro i hi
    obtain ⟨b, hb, eb⟩ := esAt_exists (bs := s.buckets) (i := i) (by omega)
    have hcl : (clear c s).buckets[i]? = some b.clear := by
      simp only [clear, List.getElem?_map, hb, Option.map_some]
    rw [frontPosValid, hcl, lift_some, ok_bind, hpos]
    by_cases hbn : b.es = []
    · have hp := hf.link.null i (by rw [hf.len]; omega) (by rw [hf.mem, eb]; simpa using hbn)
      rw [hp, lift_some, ok_bind, if_pos (show b.clear.es = [] from rfl), assert_of (by simp), ok_bind]
      have hiff : (∃ j, i ≤ j ∧ esAt s.buckets j ≠ []) ↔ ∃ j, i + 1 ≤ j ∧ esAt s.buckets j ≠ [] := by
        constructor
        · rintro ⟨j, h1, h2⟩
          refine ⟨j, ?_, h2⟩
          rcases Nat.lt_or_ge i j with h | h
          · exact h
          · have : j = i := by omega
            rw [this, eb] at h2
            exact (h2 hbn).elim
        · rintro ⟨j, h1, h2⟩
          exact ⟨j, by omega, h2⟩
      rw [hiff]
      exact ih (i + 1) (by omega)
    · obtain ⟨p, p1, p2, p3⟩ := hf.link.mem_pos ((hf.mem i).mpr (by rw [eb]; exact hbn))
      rw [p3, lift_some, ok_bind, if_pos (show b.clear.es = [] from rfl)]
      exact ⟨fun _ => rfl, fun h => (h ⟨i, le_refl _, by rw [eb]; exact hbn⟩).elim⟩

theorem clearD_tracked (hs : Sane c) (ht : c.trackFront = true) {w : E → M} {T : M} {s : State E}
    (h : Inv c w T s) : clearD c s = if flat s.buckets = [] then ok (clear c s) else failed := by
  rw [clearD, isValid_ok hs h, ok_bind, isValid]
  obtain ⟨live, hf⟩ := h.good.front ht
  have hb2 : c.geoBase ≥ 2 := hs.base
  obtain ⟨b, hb⟩ : ∃ b, s.buckets[0]? = some b := ⟨_, List.getElem?_eq_getElem h.good.data.length_pos⟩
  have hcap := h.good.data.cap_pos hb
  rw [assert_of (by simpa using hb2), ok_bind]
  have hbs : ∃ l, (clear c s).buckets = b.clear :: l := by
    cases e : s.buckets with
    | nil => rw [e] at hb; cases hb
    | cons x l =>
      rw [e] at hb
      cases hb
      exact ⟨l.map Bucket.clear, by simp only [clear, e, List.map_cons]⟩
  obtain ⟨l, hl⟩ := hbs
  have hall : (clear c s).buckets.all (fun b => ascending c b.es) = true := by
    rw [List.all_eq_true]
    intro b' hb'
    obtain ⟨b'', _, rfl⟩ := List.mem_map.mp hb'
    rfl
  have hsum : ((clear c s).buckets.map (fun b => b.es.length)).sum = 0 := by
    rw [sum_flat]
    simp [clear, flat, List.flatMap_map, Bucket.clear]
  have hlen : (clear c s).buckets.length = s.buckets.length := by simp [clear]
  have hfend : (clear c s).front.fend = 0 := by simp [clear, frontClear, ht]
  have hmatch : firstBucket (clear c s).buckets = ok b.clear := by rw [hl]; rfl
  rw [hmatch, ok_bind, assert_of (by simpa [Bucket.clear] using hcap), ok_bind, assert_of hall, ok_bind,
    assert_of (by rw [hsum]; rfl), ok_bind, frontIsValid, if_pos ht, hlen,
    hfend]
  have hv := frontPosValid_clear hf s.buckets.length 0 (by omega)
  by_cases hfl : flat s.buckets = []
  · rw [if_pos hfl, hv.2]
    · simp only [ok_bind, frontCopy, List.insertionSort_nil, stdEqual, frontSorted]
    · rintro ⟨j, _, h2⟩
      obtain ⟨x, hx⟩ := List.exists_mem_of_ne_nil _ h2
      have := mem_flat.mpr ⟨j, hx⟩
      rw [hfl] at this
      cases this
  · obtain ⟨x, hx⟩ := List.exists_mem_of_ne_nil _ hfl
    obtain ⟨k, hk⟩ := mem_flat.mp hx
    rw [if_neg hfl, hv.1 ⟨k, Nat.zero_le _, List.ne_nil_of_mem hk⟩]
    rfl

theorem pushRangeD_nil {w : E → M} {T : M} {s : State E} (h : Inv c w T s)
    (hx : c.premerge = false ∨ c.trackFront = true ∨ esAt s.buckets 0 ≠ []) :
    pushRangeD c s [] = failed := by
  obtain ⟨b, hb⟩ : ∃ b, s.buckets[0]? = some b := ⟨_, List.getElem?_eq_getElem h.good.data.length_pos⟩
  have eb := esAt_some hb
  have hlt := h.good.data.length_pos
  have hcap := h.good.data.cap_pos hb
  have hfits := (h.good.data.at_ok hb).fits
  have hins : insertD c { s with count := s.count + 0 } 0 [] = failed := by
    rw [insertD]
    by_cases hp : c.premerge = true
    · rw [if_pos hp, insertPremergeD, premergeRangeD]
      simp only [hb, lift_some, ok_bind, List.length_nil, Nat.add_zero]
      rw [if_pos hfits, ok_bind, premergesD, if_neg (by simp), ok_bind]
      simp only [hb, lift_some, ok_bind]
      by_cases hbn : b.es = []
      · have ht : c.trackFront = true := by
          rcases hx with hx | hx | hx
          · rw [hp] at hx; cases hx
          · exact hx
          · rw [eb] at hx; exact (hx hbn).elim
        obtain ⟨live, hf⟩ := h.good.front ht
        have hn := hf.link.null 0 (by rw [hf.len]; omega) (by rw [hf.mem, eb]; simpa using hbn)
        rw [if_pos hbn, assignNewD]
        simp only [hb, lift_some, ok_bind, Bucket.fill, List.length_nil, Nat.zero_le, if_true]
        rw [frontInsertD, if_pos ht]
        simp only [State.setBucket, hn, lift_some, ok_bind]
        rw [assert_of (by simp), ok_bind, List.getElem?_set_self hlt, lift_some, ok_bind]
        rfl
      · rw [if_neg hbn, mergeToNonEmptyD]
        simp only [hb, lift_some, ok_bind]
        rw [assert_of (by simpa using hbn), ok_bind]
        rfl
    · rw [if_neg hp]
      rfl
  rw [pushRangeD]
  simp only [rangeSorted, assert_true, ok_bind, List.length_nil, Nat.zero_mul, growLoopD]
  rw [if_neg (by omega), ok_bind]
  have hfi : (s.buckets.findIdx? (fun b => decide (0 ≤ b.cap))) = some 0 := by
    cases e : s.buckets with
    | nil => rw [e] at hb; cases hb
    | cons x l => rw [List.findIdx?_cons, if_pos (by simp)]
  simp only [hfi, caught, ok_bind, List.reverse_nil, hins, failed_bind]

end Verif.Geobucket
