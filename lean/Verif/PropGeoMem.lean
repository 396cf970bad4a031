import Verif.GeoMemRunProofs
import Verif.PropGeobucket

/-!
# Properties of the memory of `mathic::Geobucket`: C74
-/

namespace Verif.GeoMem

open Geobucket (Conf Storage Sane Allowed)

variable {E M : Type} [AddCommMonoid M] {c : Conf E}

/-- C74: with the memory that `addBucket` cuts up, the raw copies between its parts and the exchanges
of buffers, the geobucket is on every history of allowed calls a max priority queue, for all
configurations. In particular no call reads or writes outside of the memory, or overwrites an entry
that is still needed. -/
theorem geoMem_correct (c : Conf E) (hs : Sane c) (hc : c.Lawful) (dflt : E) (w : E → M) (hw : c.Weight w) :
    (impl c dflt).CorrectBy (Geobucket.geoMem c) (Allowed c) c.lt w := by
  have hi := init_sim hs dflt
  let Inv : State E → Prop :=
    fun s => Ok c s ∧ Geobucket.Inv c w (wsum w (Geobucket.flat s.view.buckets)) s.view
  have hentry : ∀ s : State E, (impl c dflt).entries s = Geobucket.flat s.view.buckets := entries_eq
  have hinit : Inv (impl c dflt).init := by
    refine ⟨hi.2, ?_⟩
    rw [hi.1]
    exact (Geobucket.init_ok hs w).1
  have hstart : (impl c dflt).entries (impl c dflt).init = [] := by
    have := (Geobucket.init_ok hs w).2
    rw [← hi.1] at this
    exact (hentry _).trans this
  have hcount : ∀ s : State E, Inv s → s.count = ((impl c dflt).entries s).length := by
    rintro s ⟨_, h⟩
    have h1 : s.count = _ := h.good.data.count
    rw [h1, hentry]
    rfl
  have hempty : ∀ s : State E, Inv s → ((impl c dflt).empty s = true ↔ (impl c dflt).entries s = []) := by
    intro s h
    show (s.count == 0) = true ↔ _
    rw [beq_iff_eq, hcount s h]
    exact List.length_eq_zero_iff
  have hundef : ∀ (s : State E) (op : PQOp E), Inv s → op.needsTop → (impl c dflt).entries s = [] →
      (impl c dflt).step s op = none := by
    rintro s op ⟨h, hinv⟩ hn he
    refine step_undefined dflt (getMax_none h ?_ he) op hn
    rw [hentry] at he
    exact Geobucket.getMax_none hinv.good.front hinv.cache he
  have hdef : ∀ (s : State E) (op : PQOp E), Inv s → Allowed c op → (op.needsTop → (impl c dflt).entries s ≠ []) →
      ∃ (o : Option E) (s' : State E), (impl c dflt).step s op = some (o, s') ∧ Inv s' ∧
        PQStepBy (Geobucket.geoMem c) c.lt w ((impl c dflt).entries s) op o ((impl c dflt).entries s') ∧
        (impl c dflt).UsesTop (Geobucket.geoMem c) c.lt w s op o s' := by
    rintro s op ⟨h, hinv⟩ ha hne
    rw [hentry] at hne
    obtain ⟨o, t, k1, k2, k3, k4⟩ := Geobucket.step_ok hs hc hw hinv op ha hne
    obtain ⟨⟨o', s'⟩, m1, m2, m3, m4⟩ := step_sim hs dflt h.sim op _ k1
    have m2 : o' = o := m2
    have m3 : s'.view = t := m3
    subst m2 m3
    refine ⟨o', s', m1, ⟨m4, k2⟩, ?_, ?_⟩
    · rw [hentry, hentry]
      exact k3
    · have htop : op.needsTop → (Geobucket.impl c).top s.view = (impl c dflt).top s := by
        intro hnt
        obtain ⟨o2, t2, j1, _⟩ := Geobucket.step_ok hs hc hw hinv .top (by trivial) (fun _ => hne hnt)
        obtain ⟨r, j2, j3⟩ := Option.map_eq_some_iff.mp j1
        obtain ⟨r', j4, j5⟩ := top_sim h.sim _ j2
        show (Geobucket.top c s.view).map Prod.fst = (top c s).map Prod.fst
        rw [j2, j4]
        exact congrArg some j5.1.symm
      cases op with
      | pop => exact Eq.trans k4 (htop trivial)
      | top => exact Eq.trans k4 (htop trivial)
      | decreaseTop e =>
        obtain ⟨x, i1, i2, i3⟩ := k4
        refine ⟨x, (htop trivial).symm.trans i1, ?_, ?_⟩
        · rw [hentry]
          exact i2
        · rw [hentry, hentry]
          exact i3
      | push => trivial
      | pushRange => trivial
      | clear => trivial
  exact PQImpl.InvCorrect.correct (I := impl c dflt) (Inv := Inv) ⟨hinit, hstart, hempty, hcount, hundef, hdef⟩

/-- C74: what the calls return, and what the geobucket holds afterwards, is what it is for a
geobucket whose buckets are sequences without addresses. -/
theorem geoMem_same (c : Conf E) (hs : Sane c) (hc : c.Lawful) (dflt : E) (ops : List (PQOp E))
    (outs : List (Option E)) (s : State E) (ha : ∀ op ∈ ops, Allowed c op)
    (h : (impl c dflt).run (impl c dflt).init ops = some (outs, s)) :
    (Geobucket.impl c).run (Geobucket.impl c).init ops = some (outs, s.view) ∧
      (impl c dflt).entries s = (Geobucket.impl c).entries s.view :=
  run_same c hs hc dflt ops outs s ha h

/-- C74: after every history of allowed calls each bucket has the memory that its capacity and the
kind of storage ask for, the temporary areas hold as much as the largest bucket, all of this lies
in the memory, and no two of these areas overlap. -/
theorem geoMem_layout (c : Conf E) (hs : Sane c) (hc : c.Lawful) (dflt : E) (ops : List (PQOp E))
    (outs : List (Option E)) (s : State E) (ha : ∀ op ∈ ops, Allowed c op)
    (h : (impl c dflt).run (impl c dflt).init ops = some (outs, s)) : Layout c s :=
  (run_ok c hs hc dflt ops outs s ha h).toLayout

/-- C74: there is no more memory than the areas take. -/
theorem geoMem_length (c : Conf E) (hs : Sane c) (hc : c.Lawful) (dflt : E) (ops : List (PQOp E))
    (outs : List (Option E)) (s : State E) (ha : ∀ op ∈ ops, Allowed c op)
    (h : (impl c dflt).run (impl c dflt).init ops = some (outs, s)) :
    s.mem.length = ((List.range s.buckets.length).map (fun i => s.length c (.main i) + s.length c (.other i))).sum +
      s.length c .tmp + s.length c .tmp2 := by
  have hok := (run_ok c hs hc dflt ops outs s ha h)
  have h1 : (List.range s.buckets.length).map (fun i => s.length c (.main i) + s.length c (.other i)) =
      (s.buckets.map Bucket.cap).map (fun k => width c s.last k + owidth c k) := by
    apply List.ext_getElem?
    intro i
    rw [List.map_map, List.getElem?_map, List.getElem?_map]
    by_cases hi : i < s.buckets.length
    · rw [List.getElem?_range hi, List.getElem?_eq_getElem hi]
      have hb : s.buckets[i]? = some s.buckets[i] := List.getElem?_eq_getElem hi
      have hd := hok.double _ (List.getElem_mem hi)
      simp only [Option.map_some, Function.comp, State.length, area_main hb, Option.elim_some]
      congr 2
      rw [State.area, hb, owidth]
      simp only [Option.bind_some]
      by_cases hst : c.storage = .doubleBuffer
      · rw [decide_eq_true hst] at hd
        obtain ⟨o, ho⟩ := Option.isSome_iff_exists.mp hd
        rw [ho, if_pos hst]
        rfl
      · rw [decide_eq_false hst, Option.isSome_eq_false_iff, Option.isNone_iff_eq_none] at hd
        rw [hd, if_neg hst]
        rfl
    · rw [List.getElem?_eq_none (by simpa using hi), List.getElem?_eq_none (by omega)]
      rfl
  obtain ⟨l, b, hb⟩ : ∃ l b, s.buckets = l ++ [b] := by
    obtain hb | ⟨l, b, hb⟩ := List.eq_nil_or_concat s.buckets
    · exact absurd hb hok.ne
    · exact ⟨l, b, by rw [hb, List.concat_eq_append]⟩
  have hlast : s.last = b.cap := by
    rw [State.last, hb]
    simp
  have h2 : s.length c .tmp = s.last := rfl
  have h3 : s.length c .tmp2 = if c.premerge then 0 else s.last := by
    have := hok.tmp2
    rw [State.length, State.area]
    cases hp : c.premerge with
    | true =>
      rw [hp] at this
      have : s.tmp2 = none := by simpa using this
      rw [this]
      rfl
    | false =>
      rw [hp] at this
      obtain ⟨o, ho⟩ := Option.isSome_iff_exists.mp this
      rw [ho]
      rfl
  rw [h1, h2, h3, hok.len, hb, required_eq, total]
  simp only [List.map_append, List.map_cons, List.map_nil, List.dropLast_concat, List.sum_append, List.sum_cons, List.sum_nil]
  have hw : width c s.last b.cap = s.last := by
    rw [width, hlast, ite_self]
  rw [hw, hlast]
  omega

/-! ## Examples -/

/-- The values that a history returns, `none` if it is undefined. -/
def outsOf (c : Conf E) (dflt : E) (ops : List (PQOp E)) : Option (List (Option E)) :=
  ((impl c dflt).run (impl c dflt).init ops).map (·.1)

/-- Numbers, with the kind of storage and of merging given. -/
def exConf (st : Storage) (premerge : Bool) : Conf ℕ :=
  { Geobucket.natConf true true with storage := st, premerge := premerge }

/-- The length of the memory for buckets of capacities 1, 2, 4, 8. -/
def exLength : Storage → Bool → ℕ
  | .plain, true => 23
  | .plain, false => 31
  | .doubleBuffer, true => 38
  | .doubleBuffer, false => 46
  | .sameSize, true => 40
  | .sameSize, false => 48

/-- A history that fills buckets of capacities 1, 2, 4, 8 meets the hypotheses, for each kind of storage
and of merging. -/
example (st : Storage) (premerge : Bool) : Sane (exConf st premerge) ∧ (exConf st premerge).Lawful ∧
    (∃ outs s, (impl (exConf st premerge) 0).run (impl (exConf st premerge) 0).init Geobucket.exOps = some (outs, s) ∧
      (s : State ℕ).mem.length = exLength st premerge) ∧
    (∀ op ∈ Geobucket.exOps, Allowed (exConf st premerge) op) := by
  refine ⟨⟨by simp [exConf, Geobucket.natConf], by simp [exConf, Geobucket.natConf], by simp [exConf, Geobucket.natConf]⟩,
    ?_, ?_, ?_⟩
  · exact Geobucket.natConf_lawful true true
  · have h : ((impl (exConf st premerge) 0).run (impl (exConf st premerge) 0).init Geobucket.exOps).map
        (fun r => (r.2 : State ℕ).mem.length) = some (exLength st premerge) := by
      cases st <;> cases premerge <;> decide +kernel
    obtain ⟨⟨outs, s⟩, h1, h2⟩ := Option.map_eq_some_iff.mp h
    exact ⟨outs, s, h1, h2⟩
  · intro op hop
    simp only [Geobucket.exOps, List.mem_cons, List.not_mem_nil, or_false] at hop
    rcases hop with rfl | rfl | rfl | rfl | rfl | rfl
    · exact ⟨by cases st <;> cases premerge <;> decide +kernel, by simp⟩
    · trivial
    · exact ⟨by cases st <;> cases premerge <;> decide +kernel, by simp⟩
    · trivial
    · trivial
    · trivial

-- The other ways to store, search and merge compute the same.
#guard [Storage.plain, .doubleBuffer, .sameSize].all fun st => [true, false].all fun a => [true, false].all fun b =>
  [true, false].all fun t =>
    outsOf { Geobucket.natConf t false with storage := st, premerge := a, binarySearch := b } 0
      (Geobucket.exOps ++ [.pop, .push 9, .pop])
      == some [none, none, none, none, some 9, some 9, some 8, none, some 9]

-- Many pushes one by one, so that buckets are added and merged again and again.
#guard [Storage.plain, .doubleBuffer, .sameSize].all fun st => [true, false].all fun a =>
  outsOf (exConf st a) 0 ((List.range 40).map (fun i => PQOp.push (i * 7 % 41)) ++ List.replicate 3 .pop) ==
    some (List.replicate 40 none ++ [some 40, some 39, some 38])

end Verif.GeoMem
