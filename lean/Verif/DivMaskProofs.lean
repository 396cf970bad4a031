import Verif.DivMaskSpec
import Mathlib.Algebra.BigOperators.Group.List.Basic
import Mathlib.Algebra.Order.Ring.Int
import Mathlib.Tactic.Linarith
import Mathlib.Tactic.Ring
import Mathlib.Data.List.Nodup
import Mathlib.Data.List.Induction

/-!
# Lemmas on `DivMask`
-/

namespace Verif.DivMask

variable {T : Type*} {c : Conf T}

/-! ## Masks -/

theorem canDivide_iff (a b : Mask) :
    canDivide a b = true ↔ ∀ k < 32, a.getLsbD k = true → b.getLsbD k = true := by
  unfold canDivide
  rw [beq_iff_eq]
  constructor
  · intro h k hk ha
    have := congrArg (fun x => BitVec.getLsbD x k) h
    simpa [hk, ha] using this
  · intro h
    apply BitVec.eq_of_getLsbD_eq
    intro k hk
    have := h k hk
    rw [BitVec.getLsbD_and, BitVec.getLsbD_not]
    cases ha : a.getLsbD k with
    | false => simp
    | true => simp [this ha]

theorem compute_getLsbD (bits : Bits) (t : T) (k : ℕ) :
    (compute c bits t).getLsbD k = (decide (k < 32) &&
      match bits.reverse[k]? with
      | none => false
      | some b => decide (c.getExponent t b.1 > b.2)) := by
  induction bits using List.reverseRecOn generalizing k with
  | nil => simp [compute]
  | append_singleton bits b ih =>
    unfold compute at ih ⊢
    rw [List.foldl_append, List.foldl_cons, List.foldl_nil, List.reverse_append]
    cases k with
    | zero =>
      by_cases h : c.getExponent t b.1 > b.2 <;> simp [h]
    | succ k =>
      simp only [BitVec.getLsbD_or, BitVec.getLsbD_shiftLeft, Nat.add_sub_cancel, ih]
      have h1 : (if c.getExponent t b.1 > b.2 then (1 : BitVec 32) else 0).getLsbD (k + 1) = false := by
        split
        · simp
        · simp
      rw [h1]
      by_cases hk : k + 1 < 32
      · have hk' : k < 32 := by omega
        simp [hk, hk']
      · simp [hk]

theorem compute_mono (a b : T) (bits : Bits)
    (h : ∀ x ∈ bits, c.getExponent a x.1 ≤ c.getExponent b x.1) :
    canDivide (compute c bits a) (compute c bits b) = true := by
  rw [canDivide_iff]
  intro k hk ha
  rw [compute_getLsbD] at ha ⊢
  cases hx : bits.reverse[k]? with
  | none => rw [hx] at ha; simp at ha
  | some x =>
    rw [hx] at ha
    have hm : x ∈ bits := List.mem_reverse.mp (List.mem_of_getElem? hx)
    have := h x hm
    simp only [hk, decide_true, Bool.true_and, decide_eq_true_eq] at ha ⊢
    omega

theorem foldl_combineAnd (ms : List Mask) (m : Mask) (k : ℕ) :
    (ms.foldl combineAnd m).getLsbD k = (m.getLsbD k && ms.all (fun x => x.getLsbD k)) := by
  induction ms generalizing m with
  | nil => simp
  | cons x ms ih => simp [ih, combineAnd, Bool.and_assoc]

theorem lowerBound_canDivide {ms : List Mask} {m x : Mask} (hx : x ∈ ms)
    (h : canDivide x m = true) : canDivide (lowerBound ms) m = true := by
  rw [canDivide_iff] at h ⊢
  intro k hk hl
  apply h k hk
  rw [lowerBound, foldl_combineAnd] at hl
  simp only [Bool.and_eq_true, List.all_eq_true] at hl
  exact hl.2 x hx

/-! ## The shape of the tests -/

/-- The bits for the variable that is number `i` in the order of the distribution. -/
def share (n i : ℕ) : ℕ := totalBits / n + (if i < totalBits % n then 1 else 0)

theorem sum_share_aux (q r m : ℕ) :
    ((List.range m).map (fun i => q + (if i < r then 1 else 0))).sum = m * q + min m r := by
  induction m with
  | zero => simp
  | succ m ih =>
    rw [List.range_succ, List.map_append, List.sum_append, ih]
    simp only [List.map_cons, List.map_nil, List.sum_cons, List.sum_nil]
    have : (m + 1) * q = m * q + q := by ring
    split <;> omega

theorem sum_share (n : ℕ) (hn : 0 < n) : ((List.range n).map (share n)).sum = 32 := by
  have h := sum_share_aux (totalBits / n) (totalBits % n) n
  have h2 : totalBits % n < n := Nat.mod_lt _ hn
  have h3 := Nat.div_add_mod totalBits n
  unfold share
  rw [h, min_eq_right h2.le, h3]
  rfl

theorem defaultLoop_shape {ty : ExpTy} {var : ℕ} : ∀ (n i : ℕ) (exp : ℤ) (acc bits : Bits),
    defaultLoop ty var i exp acc n = some bits →
    ∃ l, bits = acc ++ l ∧ l.length = n ∧ ∀ b ∈ l, b.1 = var := by
  intro n
  induction n with
  | zero =>
    intro i exp acc bits h
    cases h
    exact ⟨[], by simp, rfl, nofun⟩
  | succ n ih =>
    intro i exp acc bits h
    rw [defaultLoop] at h
    have key : ∀ e, defaultLoop ty var (i + 1) e (acc ++ [(var, exp)]) n = some bits →
        ∃ l, bits = acc ++ l ∧ l.length = n + 1 ∧ ∀ b ∈ l, b.1 = var := by
      intro e he
      obtain ⟨l, h1, h2, h3⟩ := ih _ _ _ _ he
      refine ⟨(var, exp) :: l, by rw [h1]; simp, by simp [h2], ?_⟩
      intro b hb
      rcases List.mem_cons.mp hb with rfl | hb
      · rfl
      · exact h3 b hb
    split at h
    · exact key _ h
    · split at h
      · cases h
      · exact key _ h

/-- The shape of tests: for each variable from `var` on, in order, a number of tests. -/
inductive Shape : ℕ → List ℕ → Bits → Prop where
  | nil {v} : Shape v [] []
  | cons {v n ns l bits} (hl : l.length = n) (hv : ∀ b ∈ l, b.1 = v) (h : Shape (v + 1) ns bits) :
      Shape v (n :: ns) (l ++ bits)

theorem Shape.length {v : ℕ} {ns : List ℕ} {bits : Bits} (h : Shape v ns bits) :
    bits.length = ns.sum := by
  induction h with
  | nil => rfl
  | cons hl _ _ ih => simp [hl, ih]

theorem Shape.range {v : ℕ} {ns : List ℕ} {bits : Bits} (h : Shape v ns bits) :
    ∀ b ∈ bits, v ≤ b.1 ∧ b.1 < v + ns.length := by
  induction h with
  | nil => nofun
  | cons hl hv _ ih =>
    intro b hb
    rcases List.mem_append.mp hb with hb | hb
    · have := hv b hb
      simp only [List.length_cons]
      omega
    · have := ih b hb
      simp only [List.length_cons]
      omega

theorem Shape.testsOn {v : ℕ} {ns : List ℕ} {bits : Bits} (h : Shape v ns bits) (i : ℕ) :
    testsOn bits (v + i) = ns[i]?.getD 0 := by
  induction h generalizing i with
  | nil => simp [DivMask.testsOn]
  | @cons v n ns l bits hl hv h ih =>
    rw [DivMask.testsOn, List.countP_append]
    cases i with
    | zero =>
      have h1 : l.countP (fun b => b.1 == v + 0) = n := by
        rw [← hl, List.countP_eq_length]
        intro b hb
        simp [hv b hb]
      have h2 : bits.countP (fun b => b.1 == v + 0) = 0 := by
        rw [List.countP_eq_zero]
        intro b hb
        have := h.range b hb
        simp
        omega
      rw [h1, h2]
      rfl
    | succ i =>
      have h1 : l.countP (fun b => b.1 == v + (i + 1)) = 0 := by
        rw [List.countP_eq_zero]
        intro b hb
        have := hv b hb
        simp
        omega
      have h2 := ih i
      rw [DivMask.testsOn] at h2
      rw [h1, zero_add, show v + (i + 1) = v + 1 + i by omega, h2]
      simp

theorem defaultVars_shape {ty : ExpTy} {vc : ℕ} : ∀ (n var : ℕ) (acc bits : Bits),
    defaultVars ty vc var acc n = some bits →
    ∃ l, bits = acc ++ l ∧ Shape var ((List.range' var n).map (share vc)) l := by
  intro n
  induction n with
  | zero =>
    intro var acc bits h
    cases h
    exact ⟨[], by simp, .nil⟩
  | succ n ih =>
    intro var acc bits h
    rw [defaultVars] at h
    split at h
    · cases h
    · rename_i acc' h1
      obtain ⟨l1, e1, e2, e3⟩ := defaultLoop_shape _ _ _ _ _ h1
      obtain ⟨l2, f1, f2⟩ := ih _ _ _ h
      exact ⟨l1 ++ l2, by rw [f1, e1, List.append_assoc], .cons e2 e3 f2⟩

theorem bitLoop_shape {ty : ExpTy} {var : ℕ} {min inc : ℤ} : ∀ (n i : ℕ) (bits : Bits),
    bitLoop ty var min inc i n = some bits → bits.length = n ∧ ∀ b ∈ bits, b.1 = var := by
  intro n
  induction n with
  | zero =>
    intro i bits h
    cases h
    exact ⟨rfl, nofun⟩
  | succ n ih =>
    intro i bits h
    rw [bitLoop] at h
    split at h
    · cases h
    · split at h
      · cases h
      · obtain ⟨l, h1, h2⟩ := Option.map_eq_some_iff.mp h
        subst h2
        obtain ⟨g1, g2⟩ := ih _ _ h1
        refine ⟨by simp [g1], ?_⟩
        intro b hb
        rcases List.mem_cons.mp hb with rfl | hb
        · rfl
        · exact g2 b hb

theorem varBits_shape {first : T} {entries : List T} {n var : ℕ} {bits : Bits}
    (h : varBits c first entries n var = some bits) : bits.length = n ∧ ∀ b ∈ bits, b.1 = var := by
  unfold varBits at h
  split at h
  · rename_i hn
    cases h
    exact ⟨hn.symm, nofun⟩
  · simp only at h
    split at h
    · cases h
    · exact bitLoop_shape _ _ _ h

theorem allBits_shape {first : T} {entries : List T} : ∀ (bs : List ℕ) (var : ℕ) (bits : Bits),
    allBits c first entries bs var = some bits → Shape var bs bits := by
  intro bs
  induction bs with
  | nil =>
    intro var bits h
    cases h
    exact .nil
  | cons b bs ih =>
    intro var bits h
    rw [allBits] at h
    split at h
    · cases h
    · rename_i l hl
      obtain ⟨l2, h1, h2⟩ := Option.map_eq_some_iff.mp h
      subst h2
      obtain ⟨g1, g2⟩ := varBits_shape hl
      exact .cons g1 g2 (ih _ _ h1)

theorem sum_set_zero (bs : List ℕ) (i x : ℕ) (h : bs[i]? = some 0) :
    (bs.set i x).sum = bs.sum + x := by
  induction bs generalizing i with
  | nil => simp at h
  | cons b bs ih =>
    cases i with
    | zero =>
      simp at h
      subst h
      simp [add_comm]
    | succ i =>
      simp at h
      simp [ih i h, add_assoc]

theorem distribute_spec {vc : ℕ} : ∀ (ds : List VarData) (i : ℕ) (bs : List ℕ),
    (ds.map VarData.var).Nodup → (∀ d ∈ ds, bs[d.var]? = some 0) →
    ∃ bs', distribute vc ds i bs = some bs' ∧ bs'.length = bs.length ∧
      bs'.sum = bs.sum + ((List.range' i ds.length).map (share vc)).sum ∧
      (∀ (v : ℕ), v ∉ ds.map VarData.var → bs'[v]? = bs[v]?) ∧
      ∀ v ∈ ds.map VarData.var, ∃ j, i ≤ j ∧ j < i + ds.length ∧ bs'[v]? = some (share vc j) := by
  intro ds
  induction ds with
  | nil => intro i bs _ _; exact ⟨bs, rfl, rfl, by simp, fun _ _ => rfl, nofun⟩
  | cons d ds ih =>
    intro i bs hnd h0
    have hd := h0 d List.mem_cons_self
    have hlt : d.var < bs.length := (List.getElem?_eq_some_iff.mp hd).1
    rw [List.map_cons, List.nodup_cons] at hnd
    obtain ⟨bs', e1, e2, e3, e4, e5⟩ := ih (i + 1) (bs.set d.var (share vc i)) hnd.2 (by
      intro d' hd'
      rw [List.getElem?_set_ne]
      · exact h0 d' (List.mem_cons_of_mem _ hd')
      · intro heq
        exact hnd.1 (List.mem_map.mpr ⟨d', hd', heq.symm⟩))
    refine ⟨bs', ?_, by simpa using e2, ?_, ?_, ?_⟩
    · rw [distribute, if_pos hlt]
      exact e1
    · rw [e3, sum_set_zero _ _ _ hd, List.length_cons, List.range'_succ]
      simp [add_assoc]
    · intro v hv
      rw [List.map_cons, List.mem_cons, not_or] at hv
      rw [e4 v hv.2, List.getElem?_set_ne (fun h => hv.1 h.symm)]
    · intro v hv
      rw [List.map_cons, List.mem_cons] at hv
      by_cases hm : v ∈ ds.map VarData.var
      · obtain ⟨j, h1, h2, h3⟩ := e5 v hm
        exact ⟨j, by omega, by simp; omega, h3⟩
      · have hv : v = d.var := hv.resolve_right hm
        subst hv
        refine ⟨i, le_refl _, by simp, ?_⟩
        rw [e4 _ hm]
        simp [hlt]

theorem mapM_varData {first : T} {entries : List T} : ∀ (l : List ℕ) (ds : List VarData),
    l.mapM (varData c first entries) = some ds → ds.map VarData.var = l := by
  intro l
  induction l with
  | nil => intro ds h; cases h; rfl
  | cons v l ih =>
    intro ds h
    rw [List.mapM_cons] at h
    obtain ⟨d, h1, h2⟩ := Option.bind_eq_some_iff.mp h
    obtain ⟨ds', h3, h4⟩ := Option.bind_eq_some_iff.mp h2
    cases h4
    rw [List.map_cons, ih _ h3]
    congr 1
    unfold varData at h1
    simp only at h1
    split at h1
    · cases h1
    · split at h1
      · cases h1
      · cases h1; rfl

/-- The shape of all tests a calculator can have. -/
theorem built_shape {bits : Bits} (h : Built c bits) :
    ∃ ns, Shape 0 ns bits ∧ ns.length = c.varCount ∧
      (0 < c.varCount → ns.sum = 32) ∧
      ∀ v < c.varCount, ∃ j, ns[v]? = some (share c.varCount j) := by
  have hdef : ∀ bits, rebuildDefault c = some bits → ∃ ns, Shape 0 ns bits ∧ ns.length = c.varCount ∧
      (0 < c.varCount → ns.sum = 32) ∧ ∀ v < c.varCount, ∃ j, ns[v]? = some (share c.varCount j) := by
    intro bits h
    obtain ⟨l, h1, h2⟩ := defaultVars_shape _ _ _ _ h
    rw [List.nil_append] at h1
    subst h1
    refine ⟨_, h2, by simp, ?_, ?_⟩
    · intro hpos
      rw [← List.range_eq_range']
      exact sum_share _ hpos
    · intro v hv
      exact ⟨v, by simp [hv]⟩
  cases h with
  | default h => exact hdef _ h
  | rebuild sort hs entries h =>
    unfold rebuild at h
    split at h
    · exact hdef _ h
    · split at h
      · cases h
      · rename_i datas hd
        split at h
        · cases h
        · rename_i bs hb
          have hv := mapM_varData _ _ hd
          have hp := (hs datas).map VarData.var
          rw [hv] at hp
          obtain ⟨bs', e1, e2, e3, e4, e5⟩ := distribute_spec (vc := c.varCount) (sort datas) 0
            (List.replicate c.varCount 0) (hp.nodup_iff.mpr List.nodup_range) (by
              intro d hd'
              have : d.var ∈ List.range c.varCount :=
                hp.subset (List.mem_map.mpr ⟨d, hd', rfl⟩)
              simp [List.mem_range.mp this])
          rw [e1] at hb
          cases hb
          have hlen : (sort datas).length = c.varCount := by
            have := hp.length_eq
            simpa using this
          refine ⟨bs, allBits_shape _ _ _ h, by simpa using e2, ?_, ?_⟩
          · intro hpos
            rw [e3, hlen, ← List.range_eq_range', sum_share _ hpos]
            simp
          · intro v hv
            obtain ⟨j, _, _, h3⟩ := e5 v (hp.symm.subset (List.mem_range.mpr hv))
            exact ⟨j, h3⟩

/-! ## Overflow -/

/-- The bounds that `rebuildDefault` uses. -/
def defaultBound (i : ℕ) : ℤ := if i = 0 then 0 else 2 ^ (i - 1)

theorem defaultLoop_value {ty : ExpTy} {var : ℕ} : ∀ (n i : ℕ) (acc : Bits),
    (∀ j, 2 ≤ j → j ≤ i + n → ty.fit (2 ^ (j - 1)) = some (2 ^ (j - 1))) →
    defaultLoop ty var i (defaultBound i) acc n =
      some (acc ++ (List.range' i n).map (fun j => (var, defaultBound j))) := by
  intro n
  induction n with
  | zero => intro i acc _; simp [defaultLoop]
  | succ n ih =>
    intro i acc hfit
    rw [defaultLoop]
    have hnext := ih (i + 1) (acc ++ [(var, defaultBound i)]) (fun j h1 h2 => hfit j h1 (by omega))
    have hacc : acc ++ [(var, defaultBound i)] ++ (List.range' (i + 1) n).map (fun j => (var, defaultBound j)) =
        acc ++ (List.range' i (n + 1)).map (fun j => (var, defaultBound j)) := by
      rw [List.range'_succ]; simp
    rw [hacc] at hnext
    split
    · rename_i hi
      subst hi
      exact hnext
    · rename_i hi
      have h2 : defaultBound i * 2 = 2 ^ i := by
        obtain ⟨k, rfl⟩ := Nat.exists_eq_succ_of_ne_zero hi
        simp [defaultBound, pow_succ]
      have h3 := hfit (i + 1) (by omega) (by omega)
      simp only [Nat.add_sub_cancel] at h3
      rw [h2, h3]
      simp only
      have h4 : defaultBound (i + 1) = 2 ^ i := by simp [defaultBound]
      rw [h4] at hnext
      exact hnext

/-- `rebuildDefault` without overflow gives these tests. -/
def defaultBits (n : ℕ) : Bits :=
  (List.range n).flatMap (fun v => (List.range (share n v)).map (fun j => (v, defaultBound j)))

theorem defaultVars_value {ty : ExpTy} {vc : ℕ}
    (hfit : ∀ v < vc, ∀ j, 2 ≤ j → j ≤ share vc v → ty.fit (2 ^ (j - 1)) = some (2 ^ (j - 1))) :
    ∀ (n var : ℕ) (acc : Bits), var + n ≤ vc →
    defaultVars ty vc var acc n = some (acc ++ (List.range' var n).flatMap
      (fun v => (List.range (share vc v)).map (fun j => (v, defaultBound j)))) := by
  intro n
  induction n with
  | zero => intro var acc _; simp [defaultVars]
  | succ n ih =>
    intro var acc hle
    rw [defaultVars]
    have h1 := defaultLoop_value (ty := ty) (var := var) (share vc var) 0 acc (by
      intro j h1 h2
      exact hfit var (by omega) j h1 (by omega))
    rw [show defaultBound 0 = 0 from rfl] at h1
    rw [show totalBits / vc + (if var < totalBits % vc then 1 else 0) = share vc var from rfl, h1]
    simp only
    rw [ih (var + 1) _ (by omega), List.range'_succ, ← List.range_eq_range']
    simp

theorem share_le (n i : ℕ) (hn : 2 ≤ n) : share n i ≤ 17 := by
  have h1 : totalBits / n ≤ totalBits / 2 := Nat.div_le_div_left hn (by omega)
  have h2 : totalBits / 2 = 16 := rfl
  unfold share
  split <;> omega

theorem share_le' (n i : ℕ) (hn : 1 ≤ n) : share n i ≤ 32 := by
  rcases Nat.eq_or_lt_of_le hn with h | h
  · subst h
    simp [share, totalBits, Nat.mod_one]
  · have := share_le n i h
    omega

/-- All exponents of the entries lie in `0 .. b`. -/
def InRange (c : Conf T) (entries : List T) (b : ℤ) : Prop :=
  ∀ t ∈ entries, ∀ v, v < c.varCount → 0 ≤ c.getExponent t v ∧ c.getExponent t v ≤ b

theorem minMax_bounds {var : ℕ} {b : ℤ} : ∀ (entries : List T) (m : ℤ × ℤ),
    (∀ t ∈ entries, 0 ≤ c.getExponent t var ∧ c.getExponent t var ≤ b) →
    0 ≤ m.1 → m.1 ≤ m.2 → m.2 ≤ b →
    ∃ r, entries.foldl (fun m t =>
      let e := c.getExponent t var
      (if e < m.1 then e else m.1, if m.2 < e then e else m.2)) m = r ∧
      0 ≤ r.1 ∧ r.1 ≤ r.2 ∧ r.2 ≤ b := by
  intro entries
  induction entries with
  | nil => intro m _ h1 h2 h3; exact ⟨m, rfl, h1, h2, h3⟩
  | cons t entries ih =>
    intro m hin h1 h2 h3
    have ht := hin t List.mem_cons_self
    rw [List.foldl_cons]
    apply ih _ (fun t ht => hin t (List.mem_cons_of_mem _ ht))
    · simp only; split <;> omega
    · simp only; split <;> split <;> omega
    · simp only; split <;> omega

theorem fit_signed {w : ℕ} {x : ℤ} (h0 : 0 ≤ x) (h1 : x < 2 ^ (w - 1)) :
    (ExpTy.signed w).fit x = some x := by
  have : (0 : ℤ) < 2 ^ (w - 1) := by positivity
  simp only [ExpTy.fit]
  rw [if_pos ⟨by omega, h1⟩]

theorem bitLoop_defined {w var : ℕ} {min inc : ℤ} (h0 : 0 ≤ min) (hi : 0 ≤ inc) (n : ℕ) :
    ∀ i : ℕ, (∀ j : ℕ, j < i + n → min + inc * j < 2 ^ (w - 1)) →
    ∃ bits, bitLoop (.signed w) var min inc i n = some bits := by
  induction n with
  | zero => intro i _; exact ⟨[], rfl⟩
  | succ n ih =>
    intro i h
    have h1 := h i (by omega)
    have h2 : 0 ≤ inc * (i : ℤ) := by positivity
    obtain ⟨l, hl⟩ := ih (i + 1) (fun j hj => h j (by omega))
    rw [bitLoop, fit_signed h2 (by omega)]
    simp only
    rw [fit_signed (by omega) h1, hl]
    exact ⟨_, rfl⟩

theorem rebuild_defined {w : ℕ} {entries : List T} (hty : c.ty = .signed w) (hvc : c.varCount ≠ 1 ∨ entries ≠ []) (hw : 18 ≤ w)
    {sort : List VarData → List VarData} (hs : IsSort sort)
    (hin : InRange c entries (2 ^ (w - 1) - 32)) : ∃ bits, rebuild c sort entries = some bits := by
  have hpow : (2 : ℤ) ^ 17 ≤ 2 ^ (w - 1) := pow_le_pow_right₀ (by norm_num) (by omega)
  unfold rebuild
  split
  · have hvc := hvc.resolve_right (by simp)
    have hfit : ∀ v < c.varCount, ∀ j, 2 ≤ j → j ≤ share c.varCount v →
        c.ty.fit (2 ^ (j - 1)) = some (2 ^ (j - 1)) := by
      intro v hv j h1 h2
      have h3 := share_le c.varCount v (by omega)
      rw [hty]
      apply fit_signed
      · positivity
      · have : (2 : ℤ) ^ (j - 1) ≤ 2 ^ 16 := pow_le_pow_right₀ (by norm_num) (by omega)
        have h5 : (2 : ℤ) ^ 16 < 2 ^ 17 := by norm_num
        omega
    exact ⟨_, by rw [rebuildDefault, defaultVars_value hfit _ _ _ (by omega)]⟩
  · rename_i first rest
    have hmm : ∀ v < c.varCount, ∃ r, minMax c first (first :: rest) v = r ∧ 0 ≤ r.1 ∧ r.1 ≤ r.2 ∧
        r.2 ≤ 2 ^ (w - 1) - 32 := by
      intro v hv
      have hf := hin first List.mem_cons_self 0 (by omega)
      exact minMax_bounds _ _ (fun t ht => hin t ht v hv) hf.1 (le_refl _) hf.2
    have hvd : ∀ v < c.varCount, ∃ d, varData c first (first :: rest) v = some d := by
      intro v hv
      obtain ⟨r, h1, h2, h3, h4⟩ := hmm v hv
      unfold varData
      simp only [h1, hty]
      rw [fit_signed (by omega) (by omega)]
      simp only
      rw [fit_signed (by omega) (by omega)]
      exact ⟨_, rfl⟩
    have hmap : ∀ l : List ℕ, (∀ v ∈ l, v < c.varCount) →
        ∃ ds, l.mapM (varData c first (first :: rest)) = some ds := by
      intro l
      induction l with
      | nil => intro _; exact ⟨[], rfl⟩
      | cons v l ih =>
        intro hl
        obtain ⟨d, hd⟩ := hvd v (hl v List.mem_cons_self)
        obtain ⟨ds, hds⟩ := ih (fun v hv => hl v (List.mem_cons_of_mem _ hv))
        exact ⟨d :: ds, by rw [List.mapM_cons, hd, hds]; rfl⟩
    obtain ⟨datas, hd⟩ := hmap (List.range c.varCount) (fun v hv => List.mem_range.mp hv)
    simp only [hd]
    have hp := (hs datas).map VarData.var
    rw [mapM_varData _ _ hd] at hp
    obtain ⟨bs, e1, e2, e3, e4, e5⟩ := distribute_spec (vc := c.varCount) (sort datas) 0
      (List.replicate c.varCount 0) (hp.nodup_iff.mpr List.nodup_range) (by
        intro d hd'
        have : d.var ∈ List.range c.varCount :=
          hp.subset (List.mem_map.mpr ⟨d, hd', rfl⟩)
        simp [List.mem_range.mp this])
    simp only [e1]
    have hall : ∀ (bs : List ℕ) (var : ℕ), var + bs.length ≤ c.varCount → (∀ b ∈ bs, b ≤ 32) →
        ∃ bits, allBits c first (first :: rest) bs var = some bits := by
      intro bs
      induction bs with
      | nil => intro var _ _; exact ⟨[], rfl⟩
      | cons b bs ih =>
        intro var hle hb
        simp only [List.length_cons] at hle
        obtain ⟨l2, hl2⟩ := ih (var + 1) (by omega) (fun b' hb' => hb b' (List.mem_cons_of_mem _ hb'))
        have hv : ∃ l, varBits c first (first :: rest) b var = some l := by
          unfold varBits
          split
          · exact ⟨[], rfl⟩
          · rename_i hb0
            obtain ⟨r, h1, h2, h3, h4⟩ := hmm var (by omega)
            simp only [h1, hty]
            rw [fit_signed (by omega) (by omega)]
            simp only
            have hb32 := hb b List.mem_cons_self
            have hbpos : (0 : ℤ) < b := by omega
            apply bitLoop_defined h2
            · split
              · omega
              · exact Int.ediv_nonneg (by omega) (by omega)
            · intro j hj
              split
              · omega
              · have hj' : (j : ℤ) ≤ b := by omega
                have hdiv : 0 ≤ (r.2 - r.1) / (b : ℤ) := Int.ediv_nonneg (by omega) (by omega)
                have hmul : (r.2 - r.1) / (b : ℤ) * b ≤ r.2 - r.1 := Int.ediv_mul_le _ (by omega)
                have : (r.2 - r.1) / (b : ℤ) * j ≤ (r.2 - r.1) / (b : ℤ) * b :=
                  mul_le_mul_of_nonneg_left hj' hdiv
                omega
        obtain ⟨l, hl⟩ := hv
        exact ⟨l ++ l2, by rw [allBits, hl]; simp only [hl2]; rfl⟩
    apply hall
    · rw [e2]; simp
    · intro b hb
      obtain ⟨v, hv⟩ := List.mem_iff_getElem?.mp hb
      have hlt : v < c.varCount := by
        have := (List.getElem?_eq_some_iff.mp hv).1
        rw [e2] at this
        simpa using this
      obtain ⟨j, _, _, h3⟩ := e5 v (hp.symm.subset (List.mem_range.mpr hlt))
      rw [hv] at h3
      cases h3
      exact share_le' _ _ (by omega)

theorem defaultVars_unsigned {w vc : ℕ} : ∀ (n var : ℕ) (acc : Bits),
    ∃ bits, defaultVars (.unsigned w) vc var acc n = some bits := by
  have hloop : ∀ (n i var : ℕ) (exp : ℤ) (acc : Bits),
      ∃ bits, defaultLoop (.unsigned w) var i exp acc n = some bits := by
    intro n
    induction n with
    | zero => intro i var exp acc; exact ⟨acc, rfl⟩
    | succ n ih =>
      intro i var exp acc
      rw [defaultLoop]
      split
      · exact ih _ _ _ _
      · exact ih _ _ _ _
  intro n
  induction n with
  | zero => intro var acc; exact ⟨acc, rfl⟩
  | succ n ih =>
    intro var acc
    obtain ⟨bits, h⟩ := hloop (totalBits / vc + (if var < totalBits % vc then 1 else 0)) 0 var 0 acc
    rw [defaultVars, h]
    exact ih _ _

theorem bitLoop_unsigned {w var : ℕ} {min inc : ℤ} : ∀ (n i : ℕ),
    ∃ bits, bitLoop (.unsigned w) var min inc i n = some bits := by
  intro n
  induction n with
  | zero => intro i; exact ⟨[], rfl⟩
  | succ n ih =>
    intro i
    obtain ⟨bits, h⟩ := ih (i + 1)
    exact ⟨_, by rw [bitLoop]; simp only [ExpTy.fit]; rw [h]; rfl⟩

theorem rebuild_unsigned_defined {w : ℕ} (hty : c.ty = .unsigned w)
    {sort : List VarData → List VarData} (hs : IsSort sort) (entries : List T) :
    ∃ bits, rebuild c sort entries = some bits := by
  unfold rebuild
  split
  · unfold rebuildDefault
    rw [hty]
    exact defaultVars_unsigned _ _ _
  · rename_i first rest
    have hmap : ∀ l : List ℕ, ∃ ds, l.mapM (varData c first (first :: rest)) = some ds := by
      intro l
      induction l with
      | nil => exact ⟨[], rfl⟩
      | cons v l ih =>
        obtain ⟨ds, hds⟩ := ih
        have hd : ∃ d, varData c first (first :: rest) v = some d := by
          unfold varData
          rw [hty]
          simp only [ExpTy.fit]
          exact ⟨_, rfl⟩
        obtain ⟨d, hd⟩ := hd
        exact ⟨d :: ds, by rw [List.mapM_cons, hd, hds]; rfl⟩
    obtain ⟨datas, hd⟩ := hmap (List.range c.varCount)
    simp only [hd]
    have hp := (hs datas).map VarData.var
    rw [mapM_varData _ _ hd] at hp
    obtain ⟨bs, e1, _⟩ := distribute_spec (vc := c.varCount) (sort datas) 0
      (List.replicate c.varCount 0) (hp.nodup_iff.mpr List.nodup_range) (by
        intro d hd'
        have : d.var ∈ List.range c.varCount :=
          hp.subset (List.mem_map.mpr ⟨d, hd', rfl⟩)
        simp [List.mem_range.mp this])
    simp only [e1]
    have hall : ∀ (bs : List ℕ) (var : ℕ), ∃ bits, allBits c first (first :: rest) bs var = some bits := by
      intro bs
      induction bs with
      | nil => intro var; exact ⟨[], rfl⟩
      | cons b bs ih =>
        intro var
        obtain ⟨l2, hl2⟩ := ih (var + 1)
        have hv : ∃ l, varBits c first (first :: rest) b var = some l := by
          unfold varBits
          split
          · exact ⟨[], rfl⟩
          · rw [hty]
            simp only [ExpTy.fit]
            exact bitLoop_unsigned _ _
        obtain ⟨l, hl⟩ := hv
        exact ⟨l ++ l2, by rw [allBits, hl]; simp only [hl2]; rfl⟩
    exact hall _ _

/-! ## Order of the bounds -/

/-- The bounds for each variable increase strictly. -/
def Increasing (bits : Bits) : Prop := bits.Pairwise (fun a b => a.1 = b.1 → a.2 < b.2)

theorem fit_signed_eq {w : ℕ} {x y : ℤ} (h : (ExpTy.signed w).fit x = some y) : y = x := by
  simp only [ExpTy.fit] at h
  split at h
  · cases h; rfl
  · cases h

theorem defaultLoop_increasing {w var : ℕ} : ∀ (n i : ℕ) (exp : ℤ) (acc bits : Bits),
    (i = 0 → exp = 0) → (i ≠ 0 → 0 < exp) →
    defaultLoop (.signed w) var i exp acc n = some bits →
    ∃ l, bits = acc ++ l ∧ Increasing l ∧ ∀ b ∈ l, exp ≤ b.2 := by
  intro n
  induction n with
  | zero =>
    intro i exp acc bits _ _ h
    cases h
    exact ⟨[], by simp, .nil, nofun⟩
  | succ n ih =>
    intro i exp acc bits h0 h1 h
    rw [defaultLoop] at h
    have key : ∀ e, exp < e → 0 < e →
        defaultLoop (.signed w) var (i + 1) e (acc ++ [(var, exp)]) n = some bits →
        ∃ l, bits = acc ++ l ∧ Increasing l ∧ ∀ b ∈ l, exp ≤ b.2 := by
      intro e hlt hpos he
      obtain ⟨l, g1, g2, g3⟩ := ih _ _ _ _ (by omega) (fun _ => hpos) he
      refine ⟨(var, exp) :: l, by rw [g1]; simp, ?_, ?_⟩
      · refine List.pairwise_cons.mpr ⟨?_, g2⟩
        intro b hb _
        have := g3 b hb
        simp only
        omega
      · intro b hb
        rcases List.mem_cons.mp hb with rfl | hb
        · exact le_refl _
        · have := g3 b hb
          omega
    split at h
    · rename_i hi
      have := h0 hi
      exact key 1 (by omega) (by omega) h
    · rename_i hi
      have := h1 hi
      split at h
      · cases h
      · rename_i e he
        have := fit_signed_eq he
        exact key e (by omega) (by omega) h

theorem Increasing.append {l1 l2 : Bits} {v : ℕ} (h1 : Increasing l1) (h2 : Increasing l2)
    (hv1 : ∀ b ∈ l1, b.1 = v) (hv2 : ∀ b ∈ l2, v + 1 ≤ b.1) : Increasing (l1 ++ l2) := by
  refine List.pairwise_append.mpr ⟨h1, h2, ?_⟩
  intro a ha b hb hab
  have := hv1 a ha
  have := hv2 b hb
  omega

theorem defaultVars_increasing {w vc : ℕ} : ∀ (n var : ℕ) (acc bits : Bits),
    defaultVars (.signed w) vc var acc n = some bits →
    ∃ l, bits = acc ++ l ∧ Increasing l ∧ ∀ b ∈ l, var ≤ b.1 := by
  intro n
  induction n with
  | zero =>
    intro var acc bits h
    cases h
    exact ⟨[], by simp, .nil, nofun⟩
  | succ n ih =>
    intro var acc bits h
    rw [defaultVars] at h
    split at h
    · cases h
    · rename_i acc' h1
      obtain ⟨l1, e1, _, e3⟩ := defaultLoop_shape _ _ _ _ _ h1
      obtain ⟨l1', e1', e4, _⟩ := defaultLoop_increasing _ _ _ _ _ (fun _ => rfl) (by simp) h1
      have : l1' = l1 := List.append_cancel_left (e1'.symm.trans e1)
      subst this
      obtain ⟨l2, f1, f2, f3⟩ := ih _ _ _ h
      refine ⟨l1' ++ l2, by rw [f1, e1, List.append_assoc], e4.append f2 e3 f3, ?_⟩
      intro b hb
      rcases List.mem_append.mp hb with hb | hb
      · exact (e3 b hb).ge
      · have := f3 b hb
        omega

theorem bitLoop_increasing {w var : ℕ} {min inc : ℤ} (hinc : 0 < inc) : ∀ (n i : ℕ) (bits : Bits),
    bitLoop (.signed w) var min inc i n = some bits →
    Increasing bits ∧ ∀ b ∈ bits, min + inc * i ≤ b.2 := by
  intro n
  induction n with
  | zero =>
    intro i bits h
    cases h
    exact ⟨.nil, nofun⟩
  | succ n ih =>
    intro i bits h
    rw [bitLoop] at h
    split at h
    · cases h
    · rename_i p hp
      have hp := fit_signed_eq hp
      split at h
      · cases h
      · rename_i e he
        have he := fit_signed_eq he
        obtain ⟨l, h1, h2⟩ := Option.map_eq_some_iff.mp h
        subst h2
        obtain ⟨g1, g2⟩ := ih _ _ h1
        have hstep : min + inc * ((i + 1 : ℕ) : ℤ) = e + inc := by
          rw [he, hp]; push_cast; ring
        refine ⟨List.pairwise_cons.mpr ⟨?_, g1⟩, ?_⟩
        · intro b hb _
          have := g2 b hb
          simp only
          omega
        · intro b hb
          rcases List.mem_cons.mp hb with rfl | hb
          · simp only; omega
          · have := g2 b hb
            omega

theorem minMax_le (entries : List T) (var : ℕ) : ∀ m : ℤ × ℤ, m.1 ≤ m.2 →
    (entries.foldl (fun m t =>
      let e := c.getExponent t var
      (if e < m.1 then e else m.1, if m.2 < e then e else m.2)) m).1 ≤
    (entries.foldl (fun m t =>
      let e := c.getExponent t var
      (if e < m.1 then e else m.1, if m.2 < e then e else m.2)) m).2 := by
  induction entries with
  | nil => intro m h; exact h
  | cons t entries ih =>
    intro m h
    rw [List.foldl_cons]
    apply ih
    simp only
    split <;> split <;> omega

theorem allBits_increasing {w : ℕ} (hty : c.ty = .signed w) {first : T} {entries : List T} :
    ∀ (bs : List ℕ) (var : ℕ) (bits : Bits),
    allBits c first entries bs var = some bits → Increasing bits := by
  intro bs
  induction bs with
  | nil =>
    intro var bits h
    cases h
    exact .nil
  | cons b bs ih =>
    intro var bits h
    rw [allBits] at h
    split at h
    · cases h
    · rename_i l hl
      obtain ⟨l2, h1, h2⟩ := Option.map_eq_some_iff.mp h
      subst h2
      refine Increasing.append ?_ (ih _ _ h1) (varBits_shape hl).2
        (fun x hx => ((allBits_shape _ _ _ h1).range x hx).1)
      unfold varBits at hl
      split at hl
      · cases hl; exact .nil
      · simp only [hty] at hl
        split at hl
        · cases hl
        · rename_i d hd
          have hd := fit_signed_eq hd
          have hle : (minMax c first entries var).1 ≤ (minMax c first entries var).2 :=
            minMax_le entries var _ (le_refl _)
          refine (bitLoop_increasing ?_ _ _ _ hl).1
          have : 0 ≤ d / (b : ℤ) := Int.ediv_nonneg (by omega) (by omega)
          split <;> omega

theorem built_increasing {w : ℕ} (hty : c.ty = .signed w) {bits : Bits} (h : Built c bits) :
    Increasing bits := by
  have hdef : ∀ bits, rebuildDefault c = some bits → Increasing bits := by
    intro bits h
    unfold rebuildDefault at h
    rw [hty] at h
    obtain ⟨l, h1, h2, _⟩ := defaultVars_increasing _ _ _ _ h
    rw [List.nil_append] at h1
    exact h1 ▸ h2
  cases h with
  | default h => exact hdef _ h
  | rebuild sort hs entries h =>
    unfold rebuild at h
    split at h
    · exact hdef _ h
    · split at h
      · cases h
      · split at h
        · cases h
        · exact allBits_increasing hty _ _ _ h

end Verif.DivMask
