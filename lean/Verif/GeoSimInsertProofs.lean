import Verif.GeoSimAddProofs

/-!
# Helper lemmas: the operations with and without the memory do the same
-/

namespace Verif.GeoMem

open Geobucket (Conf Storage Front Place Sane)

variable {E : Type} {c : Conf E}

theorem view_last {s s' : State E} (h : s'.view.buckets = s.view.buckets) : s'.last = s.last := by
  rw [← view_tmpCap, ← view_tmpCap, Geobucket.tmpCap, Geobucket.tmpCap, h]

/-! ## Without premerge -/

/-- The second temporary area begins with `l`. -/
def Tmp (s : State E) (l : List E) : Prop :=
  ∃ p, s.tmp2 = some p ∧ slice s.mem p l.length = l ∧ l.length ≤ s.last

theorem Tmp.lies {s : State E} {l : List E} {p : ℕ} (h : l.length ≤ s.last) (hp : s.tmp2 = some p) :
    Lies c s (.mem p l.length) (some .tmp2) :=
  ⟨p, s.last, l.length, by rw [State.area, hp]; rfl, rfl, h⟩

/-- Writing to a temporary area changes no bucket. -/
theorem Ok.put_tmp {s : State E} (h : Ok c s) {id : Id} (hid : ∀ i, id ≠ .main i) {q len : ℕ}
    (ha : s.area c id = some (q, len)) {l : List E} (hl : l.length ≤ len) (n : ℕ) :
    Sim c { s with mem := put s.mem q l, count := n } { s.view with count := n } := by
  refine ⟨?_, h.rename (fun x => x) Function.injective_id (fun _ => rfl) (put_length _ _ _) rfl h.fits h.double h.tmp2⟩
  simp only [State.view]
  congr 1
  refine view_keep ?_
  intro j bj hbj
  exact h.keep ha le_rfl (by omega) (hid j) hbj

theorem reserveLoop_sim (hs : Sane c) (dflt : E) : ∀ (n i acc : ℕ) (s : State E) (t : Geobucket.State E), Sim c s t →
    SimR (Sim c) (reserveLoop c dflt n i acc s) (Geobucket.reserveLoop c n i acc t) := by
  intro n
  induction n with
  | zero => intro i acc s t _; exact SimR.undef
  | succ n ih =>
    rintro i acc s _ ⟨rfl, h⟩
    rw [reserveLoop, Geobucket.reserveLoop, view_length]
    refine SimR.bind (R := Sim c) (SimR.iff Iff.rfl (fun _ => addBucket_sim hs h.sim) (fun _ => SimR.ret h.sim)) ?_
    rintro s _ ⟨rfl, h⟩
    refine (get_sim s i).bind ?_
    rintro b _ ⟨hb, rfl⟩
    rw [h.es_length hb]
    exact SimR.iff Iff.rfl (fun _ => SimR.ret h.sim) (fun _ => ih _ _ _ _ h.sim)

theorem cascadeLoop_sim : ∀ (n b : ℕ) (l : List E) (s : State E) (t : Geobucket.State E), Sim c s t → Tmp s l →
    SimR (Sim c) (cascadeLoop c n b l.length s) (Geobucket.cascadeLoop c n b l t) := by
  intro n
  induction n with
  | zero => intro b l s t _ _; exact SimR.undef
  | succ n ih =>
    rintro b l s _ ⟨rfl, h⟩ ⟨p, hp, hsl, hll⟩
    rw [cascadeLoop, Geobucket.cascadeLoop]
    refine (get_sim s b).bind ?_
    rintro cur _ ⟨hcur, rfl⟩
    rw [hp]
    simp only [Option.bind_eq_bind, Option.bind_some]
    rw [h.es_length hcur]
    have hl : Lies c s (.mem p l.length) (some .tmp2) := Tmp.lies hll hp
    refine SimR.iff Iff.rfl (fun _ => ?_) (fun _ => ?_)
    · exact mergeToNonEmpty_sim h.sim hl (by simp) (by simp) (by simp) hsl
    · refine (get_sim s (b + 1)).bind ?_
      rintro next _ ⟨hnext, rfl⟩
      refine SimR.iff (h.es_nil hnext).symm (fun _ => ?_) (fun _ => ?_)
      · exact mergeToEmpty_sim h.sim (by omega) hl (by simp) hsl
      · rw [Geobucket.mergeToTmp, view_get_some hcur]
        simp only [Option.bind_eq_bind, Option.bind_some, view_tmpCap]
        by_cases hle : (Geobucket.merge c l (cur.view s.mem).es).1.length ≤ s.last
        · rw [if_pos hle]
          have ha : s.area c .tmp = some (s.tmp, s.last) := rfl
          have hin := h.inside _ _ ha
          simp only at hin
          rw [merge_eq (l₂ := (cur.view s.mem).es) (hl.inMem h) ((h.lies_src hcur).inMem h) hsl rfl
            (hl.clear h (by simp) ha le_rfl (by omega)) ((h.lies_src hcur).clear h (by simp) ha le_rfl (by omega))
            (by omega)]
          simp only [Option.bind_some, Nat.add_sub_cancel_left]
          obtain ⟨v1, k1⟩ := h.put_tmp (id := .tmp) (by simp) ha hle (s.count - (Geobucket.merge c l (cur.view s.mem).es).2)
          obtain ⟨v2, k2⟩ := clear_sim k1 (i := b) (b := cur) hcur (s.count - (Geobucket.merge c l (cur.view s.mem).es).2)
          have k3 := k2.swap_tmps (t := p) hp (m := put s.mem s.tmp (Geobucket.merge c l (cur.view s.mem).es).1) rfl
            (s.count - (Geobucket.merge c l (cur.view s.mem).es).2)
          rw [v1] at v2
          have k4 : Sim c { s.setBucket b cur.clear with mem := put s.mem s.tmp (Geobucket.merge c l (cur.view s.mem).es).1, count := s.count - (Geobucket.merge c l (cur.view s.mem).es).2, tmp := p, tmp2 := some s.tmp } _ := ⟨v2, k3⟩
          intro t ht
          obtain ⟨⟨l', t'⟩, ht', ht⟩ := Option.bind_eq_some_iff.mp ht
          obtain ⟨t'', ht'', e⟩ := Option.bind_eq_some_iff.mp ht'
          cases e
          obtain ⟨s', hs', hsim⟩ := frontRemove_sim k4 b _ ht''
          obtain ⟨f1, f2, f3, f4⟩ := withFront_frame hs'
          rw [hs']
          refine ih (b + 1) _ s' _ hsim ⟨s.tmp, f4, ?_, ?_⟩ t ht
          · rw [f1]
            exact slice_put_self (by omega)
          · refine hle.trans (le_of_eq ?_)
            refine (last_congr ?_).symm
            rw [f2]
            exact Ok.map_cap_set (b' := cur.clear) hcur rfl
        · rw [if_neg hle]
          exact SimR.undef

theorem insertNoPremerge_sim (hs : Sane c) (hpm : c.premerge = false) (dflt : E) {s : State E} {t : Geobucket.State E} (h : Sim c s t) (b : ℕ) (l : List E) :
    SimR (Sim c) (insertNoPremerge c dflt s b (.ext l)) (Geobucket.insertNoPremerge c t b l) := by
  obtain ⟨rfl, h⟩ := h
  rw [insertNoPremerge, Geobucket.insertNoPremerge]
  refine (get_sim s b).bind ?_
  rintro cur _ ⟨hcur, rfl⟩
  have hlen : (Src.ext l).len = l.length := rfl
  rw [h.es_length hcur, hlen]
  refine SimR.iff (h.es_nil hcur).symm (fun _ => ?_) (fun _ => ?_)
  · exact assignNew_sim h.sim (lies_ext l) (by simp) rfl
  refine SimR.iff Iff.rfl (fun _ => ?_) (fun _ => ?_)
  · exact mergeToNonEmpty_sim h.sim (lies_ext l) (by simp) (by simp) (by simp) rfl
  rw [view_length]
  refine (reserveLoop_sim hs dflt _ _ _ _ _ h.sim).bind ?_
  clear hcur
  rintro s _ ⟨rfl, h⟩
  cases hcur : s.buckets[b]? with
  | none =>
    intro t ht
    obtain ⟨v, hv, ht⟩ := Option.bind_eq_some_iff.mp ht
    split at ht
    · obtain ⟨w, hw, _⟩ := Option.bind_eq_some_iff.mp ht
      rw [view_get, hcur] at hw
      cases hw
    · obtain ⟨w, hw, _⟩ := Option.bind_eq_some_iff.mp ht
      obtain ⟨w, hw, _⟩ := Option.bind_eq_some_iff.mp hw
      rw [view_get, hcur] at hw
      cases hw
  | some cur =>
    simp only [Option.bind_eq_bind, Option.bind_some]
    refine (get_sim s (b + 1)).bind ?_
    rintro next _ ⟨hnext, rfl⟩
    refine SimR.iff (h.es_nil hnext).symm (fun _ => ?_) (fun _ => ?_)
    · exact mergeToEmpty_sim h.sim (by omega) (lies_ext l) (by simp) rfl
    · obtain ⟨p, hp⟩ : ∃ p, s.tmp2 = some p := by
        have := h.tmp2
        rw [hpm] at this
        exact Option.isSome_iff_exists.mp this
      rw [hp, Geobucket.mergeToTmp, view_get_some hcur]
      simp only [Option.bind_eq_bind, Option.bind_some, view_tmpCap]
      have hl : Lies c s (.ext l) none := lies_ext l
      by_cases hle : (Geobucket.merge c l (cur.view s.mem).es).1.length ≤ s.last
      · rw [if_pos hle]
        have ha : s.area c .tmp2 = some (p, s.last) := by rw [State.area, hp]; rfl
        have hin := h.inside _ _ ha
        simp only at hin
        rw [merge_eq (l₁ := l) (l₂ := (cur.view s.mem).es) (hl.inMem h) ((h.lies_src hcur).inMem h) rfl rfl
          (hl.clear h (by simp) ha le_rfl (by omega)) ((h.lies_src hcur).clear h (by simp) ha le_rfl (by omega))
          (by omega)]
        simp only [Option.bind_some, Nat.add_sub_cancel_left]
        obtain ⟨v1, k1⟩ := h.put_tmp (id := .tmp2) (by simp) ha hle (s.count - (Geobucket.merge c l (cur.view s.mem).es).2)
        obtain ⟨v2, k2⟩ := clear_sim k1 (i := b) (b := cur) hcur (s.count - (Geobucket.merge c l (cur.view s.mem).es).2)
        rw [v1] at v2
        intro t ht
        obtain ⟨⟨l', t'⟩, ht', ht⟩ := Option.bind_eq_some_iff.mp ht
        obtain ⟨t'', ht'', e⟩ := Option.bind_eq_some_iff.mp ht'
        cases e
        obtain ⟨s', hs', hsim⟩ := frontRemove_sim ⟨v2, k2⟩ b _ ht''
        obtain ⟨f1, f2, f3, f4⟩ := withFront_frame hs'
        have hs'' : frontRemove c { s.setBucket b cur.clear with mem := put s.mem p (Geobucket.merge c l (cur.view s.mem).es).1, count := s.count - (Geobucket.merge c l (cur.view s.mem).es).2 } b = some s' := hs'
        rw [hs'']
        simp only [Option.bind_some]
        have hbl : s'.buckets.length = t'.buckets.length := by
          rw [← hsim.1, view_length]
        rw [hbl]
        refine cascadeLoop_sim _ (b + 1) _ s' _ hsim ⟨p, f4.trans hp, ?_, ?_⟩ t ht
        · rw [f1]
          exact slice_put_self (by omega)
        · refine hle.trans (le_of_eq ?_)
          refine (last_congr ?_).symm
          rw [f2]
          exact Ok.map_cap_set (b' := cur.clear) hcur rfl
      · rw [if_neg hle]
        exact SimR.undef

/-! ## With premerge -/

theorem premergeRange_sim (hs : Sane c) (dflt : E) : ∀ (n r k : ℕ) (s : State E) (t : Geobucket.State E), Sim c s t →
    SimR (SimP c) (premergeRange c dflt n r k s) (Geobucket.premergeRange c n r k t) := by
  intro n
  induction n with
  | zero => intro r k s t _; exact SimR.undef
  | succ n ih =>
    rintro r k s _ ⟨rfl, h⟩
    rw [premergeRange, Geobucket.premergeRange]
    refine (get_sim s r).bind ?_
    rintro b _ ⟨hb, rfl⟩
    rw [h.es_length hb, view_length]
    refine SimR.iff Iff.rfl (fun _ => SimR.ret ⟨rfl, h.sim⟩) (fun _ => ?_)
    refine SimR.iff Iff.rfl (fun _ => ?_) (fun _ => ih _ _ _ _ h.sim)
    exact (addBucket_sim hs h.sim).map (fun _ _ h => ⟨rfl, h⟩)

theorem moveLoop_sim : ∀ (n r : ℕ) (s : State E) (t : Geobucket.State E), n ≤ r → Sim c s t →
    SimR (Sim c) (moveLoop c n r s) (Geobucket.moveLoop c n r t) := by
  intro n
  induction n with
  | zero => intro r s t _ h; exact SimR.ret h
  | succ n ih =>
    intro r s t hr h
    exact (moveToEmpty_sim h (by omega)).bind (fun s t h => ih _ _ _ (by omega) h)

theorem premerges_sim {s : State E} {t : Geobucket.State E} (h : Sim c s t) {b r : ℕ} (hbr : b ≤ r) :
    SimR (Sim c) (premerges c s b r) (Geobucket.premerges c t b r) := by
  obtain ⟨rfl, h⟩ := h
  rw [premerges, Geobucket.premerges]
  refine SimR.iff Iff.rfl (fun hne => ?_) (fun _ => SimR.ret h.sim)
  refine (get_sim s r).bind ?_
  rintro rb _ ⟨hrb, rfl⟩
  refine SimR.iff (not_congr (h.es_nil hrb).symm) (fun _ => ?_) (fun _ => moveLoop_sim _ _ _ _ (by omega) h.sim)
  exact (mergeBuckets_sim h.sim (by omega)).bind (fun s t h => moveLoop_sim _ _ _ _ (by omega) h)

theorem premergeRange_le : ∀ (n r k : ℕ) (t : Geobucket.State E) (x : ℕ × Geobucket.State E),
    Geobucket.premergeRange c n r k t = some x → r ≤ x.1 := by
  intro n
  induction n with
  | zero => intro r k t x h; cases h
  | succ n ih =>
    intro r k t x h
    rw [Geobucket.premergeRange] at h
    obtain ⟨b, _, h⟩ := Option.bind_eq_some_iff.mp h
    split at h
    · cases h
      exact le_rfl
    · split at h
      · obtain ⟨_, _, rfl⟩ := Option.map_eq_some_iff.mp h
        exact Nat.le_succ _
      · have := ih _ _ _ _ h
        omega

theorem insertPremerge_sim (hs : Sane c) (dflt : E) {s : State E} {t : Geobucket.State E} (h : Sim c s t) (b : ℕ) (l : List E) :
    SimR (Sim c) (insertPremerge c dflt s b (.ext l)) (Geobucket.insertPremerge c t b l) := by
  intro u hu
  obtain ⟨⟨r, t1⟩, h1, hu⟩ := Option.bind_eq_some_iff.mp hu
  obtain ⟨⟨r', s1⟩, k1, e, k2⟩ := premergeRange_sim hs dflt _ b l.length _ _ h _ h1
  have e : r' = r := e
  subst e
  have hbr := premergeRange_le _ _ _ _ _ h1
  have hlen : s.buckets.length = t.buckets.length := by
    rw [← h.1, view_length]
  have hl : (Src.ext l).len = l.length := rfl
  rw [insertPremerge, hlen, hl, k1]
  refine ((premerges_sim k2 hbr).bind (fun s t h => ?_)) u hu
  obtain ⟨rfl, h⟩ := h
  refine (get_sim s b).bind ?_
  rintro cur _ ⟨hcur, rfl⟩
  refine SimR.iff (h.es_nil hcur).symm (fun _ => ?_) (fun _ => ?_)
  · exact assignNew_sim h.sim (lies_ext l) (by simp) rfl
  · exact mergeToNonEmpty_sim h.sim (lies_ext l) (by simp) (by simp) (by simp) rfl

theorem insert_sim (hs : Sane c) (dflt : E) {s : State E} {t : Geobucket.State E} (h : Sim c s t) (b : ℕ) (l : List E) :
    SimR (Sim c) (insert c dflt s b (.ext l)) (Geobucket.insert c t b l) :=
  SimR.iff Iff.rfl (fun _ => insertPremerge_sim hs dflt h b l)
    (fun hp => insertNoPremerge_sim hs (by simpa using hp) dflt h b l)

/-! ## The searches of `push` -/

theorem binarySearch_eq {m : List E} {p size : ℕ} (e : E) : ∀ (range start : ℕ), start + range ≤ size →
    binarySearch c m p e start range = Geobucket.binarySearch c (slice m p size) e start range := by
  intro range
  induction range using Nat.strong_induction_on with
  | _ range ih =>
    intro start hle
    rw [binarySearch, Geobucket.binarySearch]
    by_cases h0 : range = 0
    · rw [if_pos h0, if_pos h0]
    · rw [if_neg h0, if_neg h0, slice_get, if_pos (by omega)]
      cases m[p + (start + range / 2)]? with
      | none => rfl
      | some x =>
        simp only
        rw [ih _ (by omega) _ (by omega), ih _ (by omega) _ (by omega)]

theorem linearSearch_eq {m : List E} {p : ℕ} (e : E) : ∀ (l : List E) (i : ℕ), slice m (p + i) l.length = l →
    linearSearch c m p e i l.length = some (Geobucket.linearSearch c e i l) := by
  intro l
  induction l with
  | nil => intro i _; rfl
  | cons x l ih =>
    intro i hl
    obtain ⟨h1, h2⟩ := slice_succ hl
    rw [List.length_cons, linearSearch, Geobucket.linearSearch, h1]
    simp only
    rw [ih (i + 1) h2]
    split
    · rfl
    · split <;> rfl

theorem search_eq {s : State E} (h : Ok c s) {i : ℕ} {b : Bucket E} (hb : s.buckets[i]? = some b) (e : E) :
    search c s.mem b e = Geobucket.search c (b.view s.mem).es e := by
  rw [search, Geobucket.search, h.es_length hb]
  split
  · exact binarySearch_eq e _ _ (by omega)
  · have := linearSearch_eq (c := c) (m := s.mem) (p := b.start) e (b.view s.mem).es 0
      (by rw [h.es_length hb]; rfl)
    rwa [h.es_length hb] at this

/-! ## The calls -/

theorem push_sim (hs : Sane c) (dflt : E) {s : State E} {t : Geobucket.State E} (h : Sim c s t) (e : E) :
    SimR (Sim c) (push c dflt s e) (Geobucket.push c t e) := by
  obtain ⟨rfl, h⟩ := h
  refine (get_sim s 0).bind ?_
  rintro b _ ⟨hb, rfl⟩
  have h' : Ok c { s with count := s.count + 1 } := h.other_front _ _
  rw [h.es_length hb]
  refine SimR.iff Iff.rfl (fun _ => insert_sim hs dflt h'.sim 0 [e]) (fun _ => ?_)
  refine SimR.iff (h.es_nil hb).symm (fun _ => ?_) (fun _ => ?_)
  · exact (pushBack_sim h hb e).bind (fun r v hu => frontInsert_sim (hu (s.count + 1)) 0)
  · show SimR _ (search c s.mem b e >>= _) _
    rw [search_eq h hb]
    refine (SimR.same _).bind ?_
    rintro pl _ rfl
    cases pl with
    | insertAt i =>
      refine SimR.iff Iff.rfl (fun _ => ?_) (fun _ => ?_)
      · exact (pushBack_sim h hb e).bind (fun r v hu => keyIncreased_sim (hu (s.count + 1)) 0)
      · exact (insertAtNotEnd_sim h hb i e).bind (fun r v hu => SimR.ret (hu (s.count + 1)))
    | dup i =>
      intro t ht
      obtain ⟨x, hx, ht⟩ := Option.bind_eq_some_iff.mp ht
      have hx' : s.mem[b.start + i]? = some x := by
        have hx : (slice s.mem b.start b.size)[i]? = some x := hx
        rw [slice_get] at hx
        split at hx
        · exact hx
        · cases hx
      show ∃ s', (s.mem[b.start + i]? >>= _) = some s' ∧ _
      rw [hx']
      exact ((setEntry_sim h hb i (c.dedup x e)).bind (fun r v hu => SimR.ret (hu (s.count + 1 - 1)))) t ht

theorem growLoop_sim (hs : Sane c) (dflt : E) : ∀ (n adj : ℕ) (s : State E) (t : Geobucket.State E), Sim c s t →
    SimR (Sim c) (growLoop c dflt n adj s) (Geobucket.growLoop c n adj t) := by
  intro n
  induction n with
  | zero => intro adj s t _; exact SimR.undef
  | succ n ih =>
    rintro adj s _ ⟨rfl, h⟩
    rw [growLoop, Geobucket.growLoop, view_tmpCap, State.last]
    cases hg : s.buckets.getLast? with
    | none => exact absurd (List.getLast?_eq_none_iff.mp hg) h.ne
    | some b =>
      refine SimR.iff Iff.rfl (fun _ => ?_) (fun _ => SimR.ret h.sim)
      intro t ht
      cases ha : Geobucket.addBucket c s.view with
      | none =>
        rw [ha] at ht
        cases ht
      | some t1 =>
        rw [ha] at ht
        obtain ⟨s1, k1, k2⟩ := addBucket_sim hs (dflt := dflt) h.sim t1 ha
        rw [k1]
        exact ih adj s1 t1 k2 t ht

theorem pushRange_sim (hs : Sane c) (dflt : E) {s : State E} {t : Geobucket.State E} (h : Sim c s t) (l : List E) :
    SimR (Sim c) (pushRange c dflt s l) (Geobucket.pushRange c t l) := by
  obtain ⟨rfl, h⟩ := h
  refine (growLoop_sim hs dflt _ _ _ _ (h.sim.count (s.count + l.length))).bind ?_
  rintro s _ ⟨rfl, h⟩
  have he : s.view.buckets.findIdx? (fun b => decide (l.length * c.insertFactor ≤ b.cap)) =
      s.buckets.findIdx? (fun b => decide (l.length * c.insertFactor ≤ b.cap)) := by
    rw [State.view, List.findIdx?_map]
    rfl
  rw [he]
  refine (SimR.same _).bind ?_
  rintro b _ rfl
  exact insert_sim hs dflt h.sim b l.reverse

theorem pop_sim {s : State E} {t : Geobucket.State E} (h : Sim c s t) :
    SimR (SimP c) (pop c s) (Geobucket.pop c t) := by
  refine (getMax_sim h).bind ?_
  rintro ⟨x, s⟩ ⟨y, t⟩ ⟨e, h⟩
  have e : x = y := e
  subst e
  obtain ⟨rfl, h⟩ := h
  refine (get_sim s x).bind ?_
  rintro b _ ⟨hb, rfl⟩
  refine (getBack_sim h hb).bind ?_
  rintro v _ rfl
  refine (popBack_sim h hb).bind ?_
  intro b' v' hu
  refine (keyDecreased_sim (hu (s.count - 1)) x).bind ?_
  exact fun s t h => SimR.ret ⟨rfl, h⟩

theorem top_sim {s : State E} {t : Geobucket.State E} (h : Sim c s t) :
    SimR (SimP c) (top c s) (Geobucket.top c t) := by
  refine (getMax_sim h).bind ?_
  rintro ⟨x, s⟩ ⟨y, t⟩ ⟨e, h⟩
  have e : x = y := e
  subst e
  obtain ⟨rfl, h⟩ := h
  refine (get_sim s x).bind ?_
  rintro b _ ⟨hb, rfl⟩
  refine (getBack_sim h hb).bind ?_
  rintro v _ rfl
  exact SimR.ret ⟨rfl, h.sim⟩

theorem decreaseTop_sim (hs : Sane c) (dflt : E) {s : State E} {t : Geobucket.State E} (h : Sim c s t) (e : E) :
    SimR (Sim c) (decreaseTop c dflt s e) (Geobucket.decreaseTop c t e) := by
  refine (pop_sim h).bind ?_
  rintro ⟨x, s⟩ ⟨y, t⟩ ⟨_, h⟩
  exact push_sim hs dflt h e

theorem clearAll_sim {s : State E} {t : Geobucket.State E} (h : Sim c s t) : Sim c (clear c s) (Geobucket.clear c t) := by
  obtain ⟨rfl, h⟩ := h
  have hmap : (s.buckets.map Bucket.clear).map Bucket.cap = s.buckets.map Bucket.cap := by
    rw [List.map_map]
    rfl
  refine ⟨?_, h.rename (fun x => x) Function.injective_id ?_ rfl hmap ?_ ?_ h.tmp2⟩
  · rw [clear, Geobucket.clear, State.view, State.view]
    simp only [List.map_map]
    congr 1
  · intro id
    have hl : (clear c s).last = s.last := last_congr hmap
    cases id with
    | main i =>
      rw [State.area, State.area, hl, clear]
      simp only [List.getElem?_map, Option.map_map]
      rfl
    | other i =>
      rw [State.area, State.area, clear]
      simp only [List.getElem?_map]
      cases s.buckets[i]? <;> rfl
    | tmp =>
      rw [State.area, State.area, hl]
      rfl
    | tmp2 =>
      rw [State.area, State.area, hl]
      rfl
  · intro b hb
    obtain ⟨d, _, rfl⟩ := List.mem_map.mp hb
    exact Nat.zero_le _
  · intro b hb
    obtain ⟨d, hd, rfl⟩ := List.mem_map.mp hb
    exact h.double d hd

theorem step_sim (hs : Sane c) (dflt : E) {s : State E} {t : Geobucket.State E} (h : Sim c s t) (op : PQOp E) :
    SimR (SimP c) (step c dflt s op) (Geobucket.step c t op) := by
  cases op with
  | push e => exact (push_sim hs dflt h e).map (fun _ _ h => ⟨rfl, h⟩)
  | pushRange l => exact (pushRange_sim hs dflt h l).map (fun _ _ h => ⟨rfl, h⟩)
  | top => exact (top_sim h).map (fun _ _ h => ⟨congrArg some h.1, h.2⟩)
  | pop => exact (pop_sim h).map (fun _ _ h => ⟨congrArg some h.1, h.2⟩)
  | decreaseTop e => exact (decreaseTop_sim hs dflt h e).map (fun _ _ h => ⟨rfl, h⟩)
  | clear => exact SimR.ret ⟨rfl, clearAll_sim h⟩

end Verif.GeoMem
