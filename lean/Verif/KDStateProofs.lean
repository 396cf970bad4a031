import Verif.KDSearchProofs

/-!
# Lemmas on `KDTree`: the invariant and one call
-/

namespace Verif.KDTree

open Verif.DivMask (Ext Bits Mask)

variable {T : Type} {c : Conf T}

/-- What holds between calls. -/
structure Inv (c : Conf T) (s : State T) : Prop where
  masks : Calc c s.bits
  tree : s.tree.Ok c s.bits
  tmp : s.tree.tmp = []
  cache : c.useDivisorCache = true → ∀ p, s.cache = some p → ∃ e, s.tree.deref p = some e

/-- `size` is right. -/
def SizeOk (s : State T) : Prop := s.size = s.contents.length

theorem calcRebuild_ok (hl : c.Lawful) (l : List T) : ∃ bits, calcRebuild c l = some bits ∧ Calc c bits := by
  unfold calcRebuild Calc
  cases hu : c.useDivMask with
  | false => exact ⟨[], rfl, nofun⟩
  | true =>
    obtain ⟨bits, h⟩ := hl.noOverflow hu l
    exact ⟨bits, h, fun _ => .rebuild _ hl.sortVars _ h⟩

theorem calcInit_ok (hl : c.Lawful) : ∃ bits, calcInit c = some bits ∧ Calc c bits := by
  unfold calcInit Calc
  cases hu : c.useDivMask with
  | false => exact ⟨[], rfl, nofun⟩
  | true =>
    obtain ⟨bits, h⟩ := hl.noOverflow hu []
    exact ⟨bits, h, fun _ => .default h⟩

theorem resetChanges_spec (c : Conf T) (s : State T) : (resetChanges c s).tree = s.tree ∧
    (resetChanges c s).bits = s.bits ∧ (resetChanges c s).size = s.size ∧
    (c.useDivisorCache = true → (resetChanges c s).cache = none) := by
  unfold resetChanges
  cases c.useDivisorCache <;> cases c.doAutomaticRebuilds <;> simp

theorem init_ok (hl : c.Lawful) : ∃ s, init c = some s ∧ Inv c s ∧ SizeOk s ∧ s.contents = [] := by
  obtain ⟨bits, h1, h2⟩ := calcInit_ok hl
  obtain ⟨e1, e2, e3, e4⟩ := resetChanges_spec c (⟨⟨none, []⟩, bits, 0, none, 0⟩ : State T)
  refine ⟨_, by rw [init, h1], ⟨?_, ?_, ?_, ?_⟩, ?_, ?_⟩
  · rw [e2]; exact h2
  · rw [e1]; exact ⟨nofun, fun _ => nofun⟩
  · rw [e1]
  · intro hu p hp; rw [e4 hu] at hp; cases hp
  · unfold SizeOk State.contents; rw [e3, e1]; rfl
  · unfold State.contents; rw [e1]; rfl

theorem tree_copies {bits : Bits} {t : Tree T} (h : t.Ok c bits) (x : T) : copies c x t.contents ≤ c.leafSize := by
  unfold Tree.contents
  cases hr : t.root with
  | none => simp [copies]
  | some n => exact wf_copies (h.wf n hr) x

theorem tree_insert_ok (hl : c.Lawful) {bits : Bits} {t : Tree T} (h : t.Ok c bits) {x : Ext T} (hx : IsExt c bits x) :
    ∃ b t', t.insert c x = some (b, t') ∧ t'.Ok c bits ∧ t'.tmp = t.tmp ∧
      (b = true → c.leafSize ≤ copies c x.t t.contents ∧ t'.contents = t.contents ∧ ∀ p, t'.deref p = t.deref p) ∧
      (b = false → copies c x.t t.contents < c.leafSize ∧ t'.contents.Perm (x.t :: t.contents)) := by
  rcases t with ⟨root, tmp⟩
  have hn : (root.getD (.entries Arr.empty)).WF c bits := by
    cases root with
    | none => exact arrOk_empty
    | some n => exact h.wf n rfl
  have hcont : (root.getD (.entries Arr.empty)).contents = (⟨root, tmp⟩ : Tree T).contents := by
    cases root <;> rfl
  obtain ⟨b, n', g1, g2, g3, g4, g5⟩ := insertNode_ok hl hx _ none hn
  refine ⟨b, ⟨some n', tmp⟩, by simp [Tree.insert, g1], ⟨?_, ?_⟩, rfl, ?_, ?_⟩
  · rintro _ ⟨⟩; exact g2
  · rintro ha _ ⟨⟩
    apply g3
    cases root with
    | none => exact .inr rfl
    | some n => exact .inl (h.ne ha n rfl)
  · intro hb
    obtain ⟨e1, e2, e3⟩ := g4 hb
    rw [hcont] at e1
    refine ⟨e1, ?_, ?_⟩
    · rw [← hcont]
      show n'.contents = _
      rw [contents_exts, contents_exts, e2]
    · intro p
      cases root with
      | none =>
        exfalso
        have := hl.leafSize
        simp [Tree.contents, copies] at e1
        omega
      | some n =>
        have := e3 p.1
        simp only [Option.getD_some] at this
        simp [Tree.deref, this]
  · intro hb
    obtain ⟨e1, e2⟩ := g5 hb
    rw [hcont] at e1
    refine ⟨e1, ?_⟩
    rw [← hcont]
    show n'.contents.Perm _
    rw [contents_exts, contents_exts]
    exact e2.map Ext.t

theorem tree_reset_ok (hl : c.Lawful) {bits : Bits} {l : List T} (h : ∀ x, copies c x l ≤ c.leafSize) :
    ∃ t, Tree.reset c bits l = some (some t) ∧ t.Ok c bits ∧ t.tmp = [] ∧ t.contents.Perm l := by
  unfold Tree.reset
  split
  · rename_i h0
    subst h0
    exact ⟨_, rfl, ⟨nofun, fun _ => nofun⟩, rfl, .refl _⟩
  · rename_i hne
    obtain ⟨n, g1, g2, g3, g4⟩ := build_ok (bits := bits) hl l.length l none rfl hne h
    rw [g1]
    refine ⟨_, rfl, ⟨?_, ?_⟩, rfl, ?_⟩
    · rintro _ ⟨⟩; exact g2
    · rintro _ _ ⟨⟩; exact g3
    · show n.contents.Perm l
      rw [contents_exts]
      have := g4.map Ext.t
      simpa [Ext.make, Function.comp_def] using this

theorem delivered_go {l got : List T} {b : Bool} (h : Delivered l (fun _ => .go) got b) : got.Perm l := by
  obtain ⟨l', hp, k, hk, rfl, _, h2, _⟩ := h
  rcases h2 with h2 | h2
  · rw [h2, List.take_length]; exact hp
  · exact absurd rfl h2.2

theorem tree_forAll_ok {bits : Bits} {t : Tree T} (h : t.Ok c bits) (ht : t.tmp = []) (proceed : List T → Flow) :
    ∃ got flow t', t.forAll c proceed = some (got, flow, t') ∧ t'.root = t.root ∧
      Delivered t.contents proceed got (decide (flow = .threw)) ∧ (flow ≠ .threw → t' = t) := by
  have := enumerate_ok (k := .all) (proceed := proceed) (q := fun _ => true)
    (f := fun got a => a.forAll c proceed got) h ht
    (fun a got h1 h2 => by rw [arr_forAll_eq h1 h2]; simp)
    (fun n _ => by rw [visited_all])
  simpa [Tree.forAll] using this

theorem rebuild_ok (hl : c.Lawful) {s : State T} (h : Inv c s) :
    ∃ s', rebuild c s = .ok s' ∧ Inv c s' ∧ s'.contents.Perm s.contents ∧ s'.size = s.size := by
  obtain ⟨got, flow, t', g1, _, g3, _⟩ := tree_forAll_ok h.tree h.tmp (fun _ => Flow.go)
  have hp := delivered_go g3
  obtain ⟨bits, b1, b2⟩ := calcRebuild_ok hl got
  obtain ⟨t, t1, t2, t3, t4⟩ := tree_reset_ok hl (bits := bits) (l := got)
    (fun x => by rw [copies_perm x hp]; exact tree_copies h.tree x)
  obtain ⟨e1, e2, e3, e4⟩ := resetChanges_spec c { s with tree := t, bits := bits }
  refine ⟨_, by rw [rebuild, g1]; simp only [b1, t1], ⟨?_, ?_, ?_, ?_⟩, ?_, e3⟩
  · rw [e2]; exact b2
  · rw [e1, e2]; exact t2
  · rw [e1]; exact t3
  · intro hu p hpp; rw [e4 hu] at hpp; cases hpp
  · unfold State.contents; rw [e1]; exact t4.trans hp

/-- What must hold before `reportChanges`. -/
theorem reportChanges_ok (hl : c.Lawful) {s : State T} (additions removals : ℕ) (h1 : Calc c s.bits)
    (h2 : s.tree.Ok c s.bits) (h3 : s.tree.tmp = [])
    (h4 : additions + removals = 0 → c.useDivisorCache = true → ∀ p, s.cache = some p → ∃ e, s.tree.deref p = some e) :
    ∃ s', reportChanges c s additions removals = .ok s' ∧ Inv c s' ∧ s'.contents.Perm s.contents ∧
      s'.size = s.size + additions - removals := by
  unfold reportChanges
  -- the state with the cache reset
  have key : ∃ s1 : State T, (if c.useDivisorCache && (additions + removals != 0) then { s with cache := none } else s) = s1 ∧
      Inv c { s1 with size := s1.size + additions - removals } ∧ s1.tree = s.tree ∧ s1.size = s.size := by
    cases hu : c.useDivisorCache with
    | false => exact ⟨s, rfl, ⟨h1, h2, h3, by rw [hu]; nofun⟩, rfl, rfl⟩
    | true =>
      by_cases h0 : additions + removals = 0
      · refine ⟨s, by simp [h0], ⟨h1, h2, h3, fun hu => ?_⟩, rfl, rfl⟩
        exact h4 h0 hu
      · exact ⟨_, if_pos (by simpa using h0), ⟨h1, h2, h3, fun _ => nofun⟩, rfl, rfl⟩
  obtain ⟨s1, e1, e2, e3, e4⟩ := key
  rw [e1]
  simp only
  split
  · exact ⟨_, rfl, e2, by simp [State.contents, e3], by simp [e4]⟩
  · split
    · exact ⟨_, rfl, ⟨e2.masks, e2.tree, e2.tmp, e2.cache⟩, by simp [State.contents, e3], by simp [e4]⟩
    · obtain ⟨s', g1, g2, g3, g4⟩ := rebuild_ok hl e2
      exact ⟨s', g1, g2, g3.trans (by simp [State.contents, e3]), by rw [g4, e4]⟩

theorem filter_len {α : Type} (p : α → Bool) (l : List α) :
    (l.filter (fun e => !p e)).length = l.length - (l.filter p).length := by
  have := count_split p l
  omega

/-- The state after an enumeration. -/
theorem enum_inv {s : State T} (h : Inv c s) {flow : Flow} {t' : Tree T} (hr : t'.root = s.tree.root)
    (ht : flow ≠ .threw → t' = s.tree) :
    ({ s with tree := t' } : State T).contents = s.contents ∧ (flow ≠ .threw → Inv c { s with tree := t' }) := by
  refine ⟨by simp [State.contents, Tree.contents, hr], ?_⟩
  intro hf
  rw [ht hf]
  exact ⟨h.masks, h.tree, h.tmp, h.cache⟩

/-- Where `removeElement` can be called without harm: it compiles, and there is no cache. -/
def Op.ElementOk (c : Conf T) : Op T → Prop
  | .removeElement _ => c.packed = true ∧ c.useDivisorCache = false
  | _ => True

/-- An output that does not throw. -/
theorem not_threw {l : List T} {proceed : List T → Flow} {got : List T} {flow : Flow}
    (hd : Delivered l proceed got (decide (flow = .threw))) (hn : ∀ l, proceed l ≠ .threw) : flow ≠ .threw := by
  intro hf
  obtain ⟨_, _, _, _, _, _, _, h⟩ := hd
  exact hn _ (h.mp (by simpa using hf)).2

theorem findDivisorTree_ok (hl : c.Lawful) {s : State T} (h : Inv c s) (m : T) :
    ∃ r s', findDivisorTree c s m = .ok (r, s') ∧ Step c s.contents (.findDivisor m) r s'.contents ∧ Inv c s' ∧
      s'.contents = s.contents ∧ s'.size = s.size := by
  unfold findDivisorTree
  have hm : IsExt c s.bits (ext c s m) := rfl
  rcases tree_findDivisor_ok hl h.masks hm h.tree h.tmp with ⟨p, e, h1, h2, h3⟩ | ⟨h1, h2⟩
  · rw [h1]
    simp only [h2]
    refine ⟨_, _, rfl, .findDivisor (deref_mem h2) h3 (.refl _), ⟨h.masks, h.tree, h.tmp, ?_⟩, rfl, rfl⟩
    intro hu q hq
    simp only [hu, if_true, Option.some.injEq] at hq
    subst hq
    exact ⟨e, h2⟩
  · rw [h1]
    exact ⟨_, _, rfl, .findNone h2 (.refl _), ⟨h.masks, h.tree, h.tmp, h.cache⟩, rfl, rfl⟩

theorem findDivisor_ok (hl : c.Lawful) {s : State T} (h : Inv c s) (m : T) :
    ∃ r s', findDivisor c s m = .ok (r, s') ∧ Step c s.contents (.findDivisor m) r s'.contents ∧ Inv c s' ∧
      s'.contents = s.contents ∧ s'.size = s.size := by
  have hdef : findDivisor c s m = findDivisorTree c s m ∨
      ∃ e, findDivisor c s m = .ok (.entry (some e), s) ∧ e ∈ s.contents ∧ c.dm.divides e m = true := by
    unfold findDivisor
    cases hu : c.useDivisorCache with
    | false => exact .inl rfl
    | true =>
      cases hp : s.cache with
      | none => exact .inl rfl
      | some p =>
        obtain ⟨e, he⟩ := h.cache hu p hp
        simp only [he]
        split
        · rename_i hd
          exact .inr ⟨e, rfl, deref_mem he, hd⟩
        · exact .inl rfl
  rcases hdef with hd | ⟨e, h1, h2, h3⟩
  · rw [hd]; exact findDivisorTree_ok hl h m
  · exact ⟨_, _, h1, .findDivisor h2 h3 (.refl _), h, rfl, rfl⟩

/-- The main lemma: one call. -/
theorem step_spec (hl : c.Lawful) {s : State T} (h : Inv c s) (op : Op T) (hop : op.ElementOk c) :
    ∃ r s', step c s op = .ok (r, s') ∧ (op ≠ .size ∨ SizeOk s → Step c s.contents op r s'.contents) ∧
      (op.NotElement → SizeOk s → SizeOk s') ∧ (op.NoThrow → Inv c s') := by
  have hext : ∀ m, IsExt c s.bits (ext c s m) := fun _ => rfl
  cases op with
  | insert e =>
    obtain ⟨b, t, g1, g2, g3, g4, g5⟩ := tree_insert_ok hl h.tree (hext e)
    rw [step, insert, g1]
    cases b with
    | true =>
      obtain ⟨e1, e2, e3⟩ := g4 rfl
      refine ⟨_, _, rfl, fun _ => .insertThrows e1 ?_, fun _ hs => ?_, fun _ => ⟨h.masks, g2, ?_, ?_⟩⟩
      · show t.contents.Perm s.tree.contents
        rw [e2]
      · show s.size = t.contents.length
        rw [e2]; exact hs
      · rw [← h.tmp, ← g3]
      · intro hu p hp
        obtain ⟨x, hx⟩ := h.cache hu p hp
        exact ⟨x, by rw [← hx]; exact e3 p⟩
    | false =>
      obtain ⟨e1, e2⟩ := g5 rfl
      obtain ⟨s', r1, r2, r3, r4⟩ := reportChanges_ok hl (s := { s with tree := t }) 1 0 h.masks g2
        (by rw [← h.tmp, ← g3]) (by omega)
      have hp : s'.contents.Perm (e :: s.contents) := r3.trans e2
      simp only
      rw [r1]
      refine ⟨_, _, rfl, fun _ => .insert e1 hp, fun _ hs => ?_, fun _ => r2⟩
      unfold SizeOk at *
      rw [r4, hp.length_eq, List.length_cons]
      simp only
      omega
  | removeMultiples m =>
    rw [step, removeMultiples]
    cases ha : c.allowRemovals with
    | false =>
      exact ⟨_, _, rfl, fun _ => .removeMultiplesOff ha (.refl _), fun _ hs => hs, fun _ => h⟩
    | true =>
      obtain ⟨out, t, g1, g2, g3, g4, g5, g6⟩ := tree_removeMultiples_ok hl h.masks (hext m) h.tree ha h.tmp
      simp only [Bool.not_true, Bool.false_eq_true, if_false]
      rw [g1]
      simp only
      obtain ⟨s', r1, r2, r3, r4⟩ := reportChanges_ok hl (s := { s with tree := t }) 0 out.length h.masks g2 g3 (by
        intro h0 hu p hp
        have hnil : out = [] := List.length_eq_zero_iff.mp (by omega)
        rw [g6 hnil]
        exact h.cache hu p hp)
      have hp : s'.contents.Perm (s.contents.filter (fun e => !c.dm.divides m e)) := r3.trans g5
      rw [r1]
      refine ⟨_, _, rfl, fun _ => .removeMultiples ha g4 ?_ hp, fun _ hs => ?_, fun _ => r2⟩
      · rw [decide_eq_true_iff]
        exact List.length_pos_iff
      · unfold SizeOk at *
        rw [r4, hp.length_eq, filter_len, g4.length_eq]
        simp only
        rw [hs]
        rfl
  | removeElement m =>
    obtain ⟨hp, hu⟩ := hop
    rw [step, removeElement, hp]
    cases ha : c.allowRemovals with
    | false =>
      exact ⟨_, _, rfl, fun _ => .removeElementOff ha (.refl _), fun hne _ => hne.elim, fun _ => h⟩
    | true =>
      simp only [Bool.not_true, Bool.false_eq_true, if_false]
      rw [Tree.removeElement]
      cases hr : s.tree.root with
      | none =>
        refine ⟨_, _, rfl, fun _ => .removeNothing ha ?_ (.refl _), fun hne _ => hne.elim, fun _ => h⟩
        intro e he
        simp [State.contents, Tree.contents, hr] at he
      | some n =>
        obtain ⟨b, n', g1, g2, g3, g4⟩ := removeElementNode_ok (m := m) n (h.tree.wf n hr)
        have hcont : s.contents = n.exts.map Ext.t := by
          rw [← contents_exts]; simp [State.contents, Tree.contents, hr]
        simp only [g1, Option.map_some]
        refine ⟨_, _, rfl, fun _ => ?_, fun hne _ => hne.elim, fun _ => ⟨h.masks, ⟨?_, ?_⟩, h.tmp, ?_⟩⟩
        · cases b with
          | false =>
            obtain ⟨e1, e2⟩ := g3 rfl
            refine .removeNothing ha ?_ ?_
            · rw [hcont]
              intro e he
              obtain ⟨x, hx, rfl⟩ := List.mem_map.mp he
              exact e2 x hx
            · show n'.contents.Perm s.contents
              rw [hcont, e1, contents_exts]
          | true =>
            obtain ⟨e, e1, e2⟩ := g4 rfl
            refine .removeElement ha e1 ?_
            show s.contents.Perm (e.t :: n'.contents)
            rw [hcont, contents_exts]
            exact e2.map Ext.t
        · rintro _ ⟨⟩; exact g2
        · rw [ha]; nofun
        · rw [hu]; nofun
  | findDivisor m =>
    obtain ⟨r, s', g1, g2, g3, g4, g5⟩ := findDivisor_ok hl h m
    exact ⟨r, s', g1, fun _ => g2, fun _ hs => by unfold SizeOk at *; rw [g4, g5, hs], fun _ => g3⟩
  | findAllDivisors m p =>
    obtain ⟨got, flow, t', g1, g2, g3, g4⟩ := enumerate_ok (k := .divisors (ext c s m)) (proceed := p)
      (q := fun e => c.dm.divides e m) (f := fun got a => a.findAllDivisors c (ext c s m) p got) h.tree h.tmp
      (fun a got h1 h2 => arr_findAllDivisors_eq hl h.masks h1 h2 (hext m) p got)
      (fun n hn => by
        have := visited_divisors hl h.masks (hext m) n [] (h.tree.wf n hn)
        exact this ▸ .refl _)
    obtain ⟨e1, e2⟩ := enum_inv h g2 g4
    rw [step, Tree.findAllDivisors, g1]
    refine ⟨_, _, rfl, fun _ => .findAllDivisors g3 (by rw [e1]), fun _ hs => ?_, fun hn => e2 (not_threw g3 hn)⟩
    unfold SizeOk at *
    rw [e1]; exact hs
  | findAllMultiples m p =>
    obtain ⟨got, flow, t', g1, g2, g3, g4⟩ := enumerate_ok (k := .multiples (ext c s m)) (proceed := p)
      (q := fun e => c.dm.divides m e) (f := fun got a => a.findAllMultiples c (ext c s m) p got) h.tree h.tmp
      (fun a got h1 h2 => arr_findAllMultiples_eq hl h.masks h1 h2 (hext m) p got)
      (fun n hn => visited_multiples hl (m := ext c s m) n [] (h.tree.wf n hn))
    obtain ⟨e1, e2⟩ := enum_inv h g2 g4
    rw [step, Tree.findAllMultiples, g1]
    refine ⟨_, _, rfl, fun _ => .findAllMultiples g3 (by rw [e1]), fun _ hs => ?_, fun hn => e2 (not_threw g3 hn)⟩
    unfold SizeOk at *
    rw [e1]; exact hs
  | forAll p =>
    obtain ⟨got, flow, t', g1, g2, g3, g4⟩ := tree_forAll_ok h.tree h.tmp p
    obtain ⟨e1, e2⟩ := enum_inv h g2 g4
    rw [step, g1]
    refine ⟨_, _, rfl, fun _ => .forAll g3 (by rw [e1]), fun _ hs => ?_, fun hn => e2 (not_threw g3 hn)⟩
    unfold SizeOk at *
    rw [e1]; exact hs
  | rebuild =>
    obtain ⟨s', g1, g2, g3, g4⟩ := rebuild_ok hl h
    rw [step, g1]
    refine ⟨_, _, rfl, fun _ => .rebuild g3, fun _ hs => ?_, fun _ => g2⟩
    unfold SizeOk at *
    rw [g4, hs, g3.length_eq]
  | size =>
    refine ⟨_, _, rfl, ?_, fun _ hs => hs, fun _ => h⟩
    intro hs
    have hs : SizeOk s := by
      rcases hs with hs | hs
      · exact absurd rfl hs
      · exact hs
    unfold SizeOk at hs
    rw [hs]
    exact .size (.refl _)

end Verif.KDTree
