import Verif.GeoSimProofs

/-!
# Helper lemmas: merges in the memory of a geobucket
-/

namespace Verif.GeoMem

open Geobucket (Conf Storage Front Place)

variable {E : Type} {c : Conf E}

/-- Writing into an area leaves a range in another area alone. -/
theorem Lies.content_put {s : State E} (h : Ok c s) {a : Src E} {o : Option Id} (hl : Lies c s a o) {id : Id}
    (hne : o ≠ some id) {p len q : ℕ} {l : List E} (ha : s.area c id = some (p, len)) (h1 : p ≤ q)
    (h2 : q + l.length ≤ p + len) : a.content (put s.mem q l) = a.content s.mem := by
  have := h.inside _ _ ha
  simp only at this
  exact Src.content_put (by omega) (hl.clear h hne ha h1 h2)

theorem mergeToNonEmpty_sim {s : State E} {t : Geobucket.State E} (h : Sim c s t) {i : ℕ} {a : Src E} {o : Option Id}
    (hl : Lies c s a o) (h1 : o ≠ some (.main i)) (h2 : o ≠ some (.other i)) (h3 : o ≠ some .tmp) {l : List E}
    (hcon : a.content s.mem = l) :
    SimR (Sim c) (mergeToNonEmpty c s i a) (Geobucket.mergeToNonEmpty c t i l) := by
  obtain ⟨rfl, h⟩ := h
  refine (get_sim s i).bind ?_
  rintro b _ ⟨hb, rfl⟩
  have hin := hl.inMem h
  have hm := List.mem_of_getElem? hb
  have hcap := (h.caps b hm).2
  have hfit := h.fits b hm
  have hbs : b.src.In s.mem := (h.lies_src hb).inMem h
  cases hst : c.storage with
  | doubleBuffer =>
    intro t ht
    rw [Geobucket.mergeRes, hst] at ht
    simp only [Option.bind_eq_bind, Option.bind_some] at ht
    obtain ⟨v, hv, ht⟩ := Option.bind_eq_some_iff.mp ht
    obtain ⟨p, hp⟩ : ∃ p, b.other = some p := by
      have := h.double b hm
      rw [hst] at this
      exact Option.isSome_iff_exists.mp this
    have har := area_other (c := c) hb hp
    have hle : (Geobucket.merge c (b.view s.mem).es l).1.length ≤ b.cap := fill_le hv
    have hbd := h.inside _ _ har
    simp only at hbd
    have hmg := merge_eq (c := c) (l₁ := (b.view s.mem).es) (l₂ := l) (res := p) hbs hin rfl hcon
      (((h.lies_src hb).clear h (by simp) har le_rfl le_rfl).mono le_rfl (by omega))
      ((hl.clear h h2 har le_rfl le_rfl).mono le_rfl (by omega)) (by omega)
    have hs := slice_put_self (m := s.mem) (p := p) (l := (Geobucket.merge c (b.view s.mem).es l).1) (by omega)
    have hsw : b.switchOther (put s.mem p (Geobucket.merge c (b.view s.mem).es l).1)
        (Geobucket.merge c (b.view s.mem).es l).1.length =
        some ⟨p, some b.start, (Geobucket.merge c (b.view s.mem).es l).1.length, b.cap,
          if (Geobucket.merge c (b.view s.mem).es l).1.length > 0 then
            (Geobucket.merge c (b.view s.mem).es l).1.getLast? else b.back⟩ := by
      rw [Bucket.switchOther, hp, Option.bind_eq_bind, Option.bind_some, setBack_eq (by simp only [put_length]; omega)]
      simp only [hs]
    have hv' := fill_view (m' := put s.mem p (Geobucket.merge c (b.view s.mem).es l).1) (p := p) (o := some b.start) hv hs
    simp only [hp, Option.bind_eq_bind, Option.bind_some, hmg, Nat.add_sub_cancel_left, hsw]
    refine keyIncreased_sim ⟨?_, h.swap_other hst hb hp (b' := ⟨p, some b.start, (Geobucket.merge c (b.view s.mem).es l).1.length, b.cap, _⟩)
      rfl rfl rfl hle (put_length _ _ _) _⟩ i t ht
    simp only [State.view, Geobucket.State.setBucket]
    congr 1
    refine view_set hb ?_ hv'
    intro j bj hj hbj
    exact h.keep har le_rfl (by omega) (by simp) hbj
  | sameSize =>
    intro t ht
    rw [Geobucket.mergeRes, hst] at ht
    simp only [Option.bind_eq_bind, Option.bind_some] at ht
    obtain ⟨v, hv, ht⟩ := Option.bind_eq_some_iff.mp ht
    have har : s.area c .tmp = some (s.tmp, s.last) := rfl
    have hle : (Geobucket.merge c (b.view s.mem).es l).1.length ≤ b.cap := fill_le hv
    have hbd := h.inside _ _ har
    simp only at hbd
    have hmg := merge_eq (c := c) (l₁ := (b.view s.mem).es) (l₂ := l) (res := s.tmp) hbs hin rfl hcon
      (((h.lies_src hb).clear h (by simp) har le_rfl le_rfl).mono le_rfl (by omega))
      ((hl.clear h h3 har le_rfl le_rfl).mono le_rfl (by omega)) (by omega)
    have hs := slice_put_self (m := s.mem) (p := s.tmp) (l := (Geobucket.merge c (b.view s.mem).es l).1) (by omega)
    have hsw : b.setBufferNew (put s.mem s.tmp (Geobucket.merge c (b.view s.mem).es l).1) s.tmp
        (Geobucket.merge c (b.view s.mem).es l).1.length =
        some ⟨s.tmp, b.other, (Geobucket.merge c (b.view s.mem).es l).1.length, b.cap,
          if (Geobucket.merge c (b.view s.mem).es l).1.length > 0 then
            (Geobucket.merge c (b.view s.mem).es l).1.getLast? else b.back⟩ := by
      rw [Bucket.setBufferNew, setBack_eq (by simp only [put_length]; omega)]
      simp only [hs]
    have hv' := fill_view (m' := put s.mem s.tmp (Geobucket.merge c (b.view s.mem).es l).1) (p := s.tmp) (o := b.other) hv hs
    simp only [Option.bind_eq_bind, Option.bind_some, hmg, Nat.add_sub_cancel_left, hsw]
    refine keyIncreased_sim ⟨?_, h.swap_tmp hst hb (b' := ⟨s.tmp, b.other, (Geobucket.merge c (b.view s.mem).es l).1.length, b.cap, _⟩)
      rfl rfl rfl hle (put_length _ _ _) _⟩ i t ht
    simp only [State.view, Geobucket.State.setBucket]
    congr 1
    refine view_set hb ?_ hv'
    intro j bj hj hbj
    exact h.keep har le_rfl (by omega) (by simp) hbj
  | plain =>
    intro t ht
    rw [Geobucket.mergeRes, hst, view_tmpCap, h.es_length hb] at ht
    simp only at ht
    rw [if_pos (by omega)] at ht
    simp only [Option.bind_eq_bind, Option.bind_some] at ht
    obtain ⟨v, hv, ht⟩ := Option.bind_eq_some_iff.mp ht
    have har : s.area c .tmp = some (s.tmp, s.last) := rfl
    have hbd := h.inside _ _ har
    simp only at hbd
    have hcl := (h.lies_src hb).clear h (by simp) har le_rfl le_rfl
    have hcp := copy_eq (res := s.tmp) hbs (hcl.mono le_rfl (by show s.tmp + b.size ≤ _; omega))
      (by show s.tmp + b.size ≤ _; omega)
    have hes : (b.view s.mem).es.length = b.size := h.es_length hb
    have hcon' : b.src.content s.mem = (b.view s.mem).es := rfl
    have hlen : b.src.len = b.size := rfl
    rw [hcon', hlen] at hcp
    -- the state after the copy
    have hk : ∀ (j : ℕ) (bj : Bucket E), s.buckets[j]? = some bj →
        slice (put s.mem s.tmp (b.view s.mem).es) bj.start bj.size = slice s.mem bj.start bj.size := by
      intro j bj hbj
      exact h.keep har le_rfl (by omega) (by simp) hbj
    have h' : Ok c { s with mem := put s.mem s.tmp (b.view s.mem).es } :=
      h.rename id Function.injective_id (fun _ => rfl) (put_length _ _ _) rfl h.fits h.double h.tmp2
    have hview : ({ s with mem := put s.mem s.tmp (b.view s.mem).es } : State E).view = s.view := by
      simp only [State.view]
      congr 1
      exact view_keep hk
    have hbv : b.view (put s.mem s.tmp (b.view s.mem).es) = b.view s.mem := by
      rw [Bucket.view, hk i b hb]
      rfl
    have hl' : Lies c { s with mem := put s.mem s.tmp (b.view s.mem).es } a o := by
      cases o with
      | none => exact hl
      | some id => exact hl
    have hcon'' : a.content (put s.mem s.tmp (b.view s.mem).es) = l :=
      (hl.content_put h h3 har le_rfl (by omega)).trans hcon
    have hlt : Lies c { s with mem := put s.mem s.tmp (b.view s.mem).es } (.mem s.tmp b.size) (some .tmp) :=
      ⟨s.tmp, s.last, b.size, rfl, rfl, by omega⟩
    have hct : (Src.mem s.tmp b.size : Src E).content (put s.mem s.tmp (b.view s.mem).es) = (b.view s.mem).es := by
      show slice _ _ _ = _
      rw [← hes]
      exact slice_put_self (by omega)
    have harb : ({ s with mem := put s.mem s.tmp (b.view s.mem).es } : State E).area c (.main i) =
        some (b.start, b.cap) := by
      have hne : c.storage ≠ .sameSize := by rw [hst]; nofun
      rw [area_main (s := { s with mem := put s.mem s.tmp (b.view s.mem).es }) hb, if_neg hne]
    obtain ⟨b', e1, e2, e3, e4, e5, e6, e7⟩ := bucketMerge_eq (c := c) (b := b) (v := v)
      (hl'.inMem h') (hlt.inMem h') hcon'' hct
      (hl'.clear h' h1 harb le_rfl le_rfl) (hlt.clear h' (by simp) harb le_rfl le_rfl)
      (h'.inside _ _ harb) (by rw [hbv]; exact hv)
    simp only [Option.bind_eq_bind, Option.bind_some, hcp, Nat.add_sub_cancel_left, e1]
    have := h'.put_sim hb e3 e4 e5 e6 le_rfl (by omega) e2 (s.count - (Geobucket.merge c l (b.view s.mem).es).2)
    rw [hview] at this
    exact keyIncreased_sim this i t ht

theorem Lies.congr {s s' : State E} {a : Src E} {o : Option Id} (h : Lies c s a o)
    (ha : ∀ id, o = some id → s'.area c id = s.area c id) : Lies c s' a o := by
  cases o with
  | none => exact h
  | some id =>
    obtain ⟨p, len, n, e1, e2, e3⟩ := h
    exact ⟨p, len, n, (ha id rfl).trans e1, e2, e3⟩

theorem withFront_frame {s s' : State E} {x : Option (Geobucket.State E)} (h : withFront s x = some s') :
    s'.mem = s.mem ∧ s'.buckets = s.buckets ∧ s'.tmp = s.tmp ∧ s'.tmp2 = s.tmp2 := by
  obtain ⟨f, _, rfl⟩ := Option.map_eq_some_iff.mp h
  exact ⟨rfl, rfl, rfl, rfl⟩

theorem clear_sim {s : State E} (h : Ok c s) {i : ℕ} {b : Bucket E} (hb : s.buckets[i]? = some b) (n : ℕ) :
    Sim c { s.setBucket i b.clear with count := n } { s.view.setBucket i (b.view s.mem).clear with count := n } := by
  refine h.set_sim (b' := b.clear) hb rfl rfl rfl (Nat.zero_le _) ?_ n
  show (⟨b.cap, slice s.mem b.start 0, b.back⟩ : Geobucket.Bucket E) = ⟨b.cap, [], b.back⟩
  rw [slice_zero]

theorem mergeBuckets_sim {s : State E} {t : Geobucket.State E} (h : Sim c s t) {dst src : ℕ} (hne : dst ≠ src) :
    SimR (Sim c) (mergeBuckets c s dst src) (Geobucket.mergeBuckets c t dst src) := by
  obtain ⟨rfl, h⟩ := h
  refine (SimR.same _).bind ?_
  rintro w _ rfl
  refine SimR.bind (R := Sim c) (SimR.iff Iff.rfl (fun _ => swapKeys_sim h.sim _ _) (fun _ => SimR.ret h.sim)) ?_
  rintro s _ ⟨rfl, h⟩
  refine (get_sim s src).bind ?_
  rintro fb _ ⟨hfb, rfl⟩
  refine (mergeToNonEmpty_sim h.sim (h.lies_src hfb) (by simpa using fun e => hne e.symm) (by simp) (by simp) rfl).bind ?_
  rintro s _ ⟨rfl, h⟩
  refine (get_sim s src).bind ?_
  rintro fb _ ⟨hfb, rfl⟩
  exact frontRemove_sim (clear_sim h hfb s.count) src

theorem mergeToEmpty_sim {s : State E} {t : Geobucket.State E} (h : Sim c s t) {dst src : ℕ} (hne : dst ≠ src)
    {a : Src E} {o : Option Id} (hl : Lies c s a o) (h1 : o ≠ some (.main dst)) {l : List E}
    (hcon : a.content s.mem = l) :
    SimR (Sim c) (mergeToEmpty c s dst src a) (Geobucket.mergeToEmpty c t dst src l) := by
  obtain ⟨rfl, h⟩ := h
  refine (get_sim s src).bind ?_
  rintro fb _ ⟨hfb, rfl⟩
  refine (get_sim s dst).bind ?_
  rintro tb _ ⟨htb, rfl⟩
  intro t ht
  obtain ⟨v, hv, ht⟩ := Option.bind_eq_some_iff.mp ht
  have hr := h.cap_room htb
  obtain ⟨b', e1, e2, e3, e4, e5, e6, e7⟩ := bucketMerge_eq (c := c) (b := tb) (v := v)
    (hl.inMem h) ((h.lies_src hfb).inMem h) hcon rfl
    (hl.clear h h1 (area_main htb) le_rfl (by omega))
    ((h.lies_src hfb).clear h (by simpa using fun e => hne e.symm) (area_main htb) le_rfl (by omega))
    (h.bound_cap htb) hv
  have hs1 := h.put_sim htb e3 e4 e5 e6 le_rfl (by omega) e2 s.count
  obtain ⟨hv1, hs1⟩ := hs1
  have hfb' : ({ s.setBucket dst b' with mem := put s.mem tb.start (Geobucket.merge c l (fb.view s.mem).es).1, count := s.count } : State E).buckets[src]? = some fb := by
    show (s.buckets.set dst b')[src]? = some fb
    rw [Ok.get_set b' htb, if_neg (fun e => hne e.symm), hfb]
  have hs2 := clear_sim hs1 hfb' (s.count - (Geobucket.merge c l (fb.view s.mem).es).2)
  have hclear : (fb.view (put s.mem tb.start (Geobucket.merge c l (fb.view s.mem).es).1)).clear =
      (fb.view s.mem).clear := rfl
  rw [hv1] at hs2
  have hconf : fb.src.content s.mem = (fb.view s.mem).es := rfl
  simp only [Option.bind_eq_bind, Option.bind_some, e1]
  exact ((swapKeys_sim hs2 src dst).bind (fun s' t' h' => keyIncreased_sim h' dst)) t ht

theorem moveToEmpty_sim {s : State E} {t : Geobucket.State E} (h : Sim c s t) {dst src : ℕ} (hne : dst ≠ src) :
    SimR (Sim c) (moveToEmpty c s dst src) (Geobucket.moveToEmpty c t dst src) := by
  obtain ⟨rfl, h⟩ := h
  refine (get_sim s src).bind ?_
  rintro fb _ ⟨hfb, rfl⟩
  refine (get_sim s dst).bind ?_
  rintro tb _ ⟨htb, rfl⟩
  intro t ht
  obtain ⟨v, hv, ht⟩ := Option.bind_eq_some_iff.mp ht
  have hr := h.cap_room htb
  have hle := fill_le hv
  rw [h.es_length hfb] at hle
  have hbd := h.bound hfb
  have hbt := h.bound_cap htb
  split
  · rename_i hst
    have h1 : tb.setBufferNew s.mem fb.start fb.size = some ⟨fb.start, tb.other, (fb.view s.mem).es.length, tb.cap,
        if (fb.view s.mem).es.length > 0 then (fb.view s.mem).es.getLast? else tb.back⟩ := by
      rw [Bucket.setBufferNew, setBack_eq (by simp only; omega), h.es_length hfb]
      rfl
    have h2 : fb.setBufferNew s.mem tb.start 0 = some { fb with start := tb.start, size := 0 } := by
      rw [Bucket.setBufferNew, setBack_eq (by simp only; omega)]
      rfl
    have hv' := fill_view (m' := s.mem) (p := fb.start) (o := tb.other) hv (by rw [h.es_length hfb]; rfl)
    simp only [Option.bind_eq_bind, Option.bind_some, h1, h2]
    have hok := h.swap_main hst hne htb hfb
      (b' := ⟨fb.start, tb.other, (fb.view s.mem).es.length, tb.cap,
        if (fb.view s.mem).es.length > 0 then (fb.view s.mem).es.getLast? else tb.back⟩)
      (d' := { fb with start := tb.start, size := 0 }) rfl rfl rfl
      (by simp only; rw [h.es_length hfb]; exact hle) rfl rfl rfl (Nat.zero_le _)
    refine swapKeys_sim ⟨?_, hok⟩ src dst t ht
    have hfb' : (s.setBucket dst ⟨fb.start, tb.other, (fb.view s.mem).es.length, tb.cap,
        if (fb.view s.mem).es.length > 0 then (fb.view s.mem).es.getLast? else tb.back⟩).buckets[src]? = some fb := by
      show (s.buckets.set dst _)[src]? = some fb
      rw [Ok.get_set _ htb, if_neg (fun e => hne e.symm), hfb]
    have k1 := view_set (m := s.mem) htb (fun _ _ _ _ => rfl) hv'
    have k2 := view_set (s := s.setBucket dst ⟨fb.start, tb.other, (fb.view s.mem).es.length, tb.cap,
        if (fb.view s.mem).es.length > 0 then (fb.view s.mem).es.getLast? else tb.back⟩) (m := s.mem)
      (b' := { fb with start := tb.start, size := 0 }) hfb' (fun _ _ _ _ => rfl)
      (v := (fb.view s.mem).clear) (by
        show (⟨fb.cap, slice s.mem tb.start 0, fb.back⟩ : Geobucket.Bucket E) = ⟨fb.cap, [], fb.back⟩
        rw [slice_zero])
    simp only [State.view, State.setBucket, Geobucket.State.setBucket] at k1 k2 ⊢
    rw [k2, k1]
  · rename_i hst
    obtain ⟨b', e1, e2, e3, e4, e5, e6, e7⟩ := assign_eq (b := tb) (a := fb.src) (v := v)
      ((h.lies_src hfb).inMem h)
      ((h.lies_src hfb).clear h (by simpa using fun e => hne e.symm) (area_main htb) le_rfl (by omega))
      hbt hv
    obtain ⟨hv1, hs1⟩ := h.put_sim htb e3 e4 e5 e6 le_rfl (by omega) e2 s.count
    have hfb' : ({ s.setBucket dst b' with mem := put s.mem tb.start (fb.src.content s.mem), count := s.count } : State E).buckets[src]? = some fb := by
      show (s.buckets.set dst b')[src]? = some fb
      rw [Ok.get_set b' htb, if_neg (fun e => hne e.symm), hfb]
    have hs2 := clear_sim hs1 hfb' s.count
    rw [hv1] at hs2
    simp only [Option.bind_eq_bind, Option.bind_some, e1]
    exact swapKeys_sim hs2 src dst t ht

theorem assignNew_sim {s : State E} {t : Geobucket.State E} (h : Sim c s t) {i : ℕ}
    {a : Src E} {o : Option Id} (hl : Lies c s a o) (h1 : o ≠ some (.main i)) {l : List E}
    (hcon : a.content s.mem = l) :
    SimR (Sim c) (assignNew c s i a) (Geobucket.assignNew c t i l) := by
  obtain ⟨rfl, h⟩ := h
  refine (get_sim s i).bind ?_
  rintro b _ ⟨hb, rfl⟩
  intro t ht
  obtain ⟨v, hv, ht⟩ := Option.bind_eq_some_iff.mp ht
  have hr := h.cap_room hb
  obtain ⟨b', e1, e2, e3, e4, e5, e6, e7⟩ := assign_eq (b := b) (a := a) (v := v)
    (hl.inMem h) (hl.clear h h1 (area_main hb) le_rfl (by omega)) (h.bound_cap hb) (by rw [hcon]; exact hv)
  simp only [Option.bind_eq_bind, Option.bind_some, e1]
  exact frontInsert_sim (h.put_sim hb e3 e4 e5 e6 le_rfl (by omega) e2 s.count) i t ht

end Verif.GeoMem
