import Verif.DivMaskProofs

/-!
# Properties C23, C24, C25, C26, C59: `DivMask`
-/

namespace Verif.DivMask

variable {T : Type*} {c : Conf T}

/-- The configuration of the examples: monomials are exponent vectors. -/
def exConf (ty : ExpTy) (n : ℕ) : Conf (List ℤ) where
  ty := ty
  varCount := n
  getExponent t v := t.getD v 0
  divides a b := (List.range n).all (fun v => decide (a.getD v 0 ≤ b.getD v 0))

theorem exConf_lawful (ty : ExpTy) (n : ℕ) : (exConf ty n).Lawful := by
  intro a b h v hv
  exact of_decide_eq_true (List.all_eq_true.mp h v (List.mem_range.mpr hv))

/-! ## C23 -/

/-- The mask of a divisor can divide the mask of its multiple. -/
theorem mask_sound (hl : c.Lawful) {bits : Bits} (hb : Built c bits) (a b : T)
    (h : c.divides a b = true) : canDivide (compute c bits a) (compute c bits b) = true := by
  obtain ⟨ns, h1, h2, _⟩ := built_shape hb
  refine compute_mono a b bits (fun x hx => hl a b h x.1 ?_)
  have := (h1.range x hx).2
  omega

/-- The contrapositive, which is how the data structures use masks. -/
theorem mask_reject (hl : c.Lawful) {bits : Bits} (hb : Built c bits) (a b : T)
    (h : canDivide (compute c bits a) (compute c bits b) = false) : c.divides a b = false := by
  cases hd : c.divides a b with
  | false => rfl
  | true => rw [mask_sound hl hb a b hd] at h; cases h

/-- `Extender::divides` is divisibility of the entries, with masks and without. -/
theorem ext_divides (hl : c.Lawful) {bits : Bits} (hb : Built c bits) (useMask : Bool) (a b : T) :
    Ext.divides c useMask (Ext.make c bits a) (Ext.make c bits b) = c.divides a b := by
  unfold Ext.divides
  split
  · split
    · rfl
    · rename_i h
      exact (mask_reject hl hb a b (Bool.eq_false_iff.mpr h)).symm
  · rfl

/-- Mask divisibility is a preorder, so masks of masks can be chained. -/
theorem canDivide_trans {a b d : Mask} (h1 : canDivide a b = true) (h2 : canDivide b d = true) :
    canDivide a d = true := by
  rw [canDivide_iff] at *
  exact fun k hk h => h2 k hk (h1 k hk h)

-- three variables; `x y^2 z^3` does not divide `x^2 y^2` by its mask, and divides `x^2 y^5 z^3`
#guard (rebuildDefault (exConf (.signed 32) 3)).map (fun bits =>
  (canDivide (compute (exConf (.signed 32) 3) bits [1, 2, 3]) (compute (exConf (.signed 32) 3) bits [2, 2, 0]),
   canDivide (compute (exConf (.signed 32) 3) bits [1, 2, 3]) (compute (exConf (.signed 32) 3) bits [2, 5, 3])))
  = some (false, true)

/-- The hypotheses of `mask_sound` can be met, with a mask that is not trivial. -/
example : ∃ bits, Built (exConf (.signed 32) 3) bits ∧
    (exConf (.signed 32) 3).divides [1, 2, 3] [2, 5, 3] = true ∧
    compute (exConf (.signed 32) 3) bits [1, 2, 3] ≠ 0 := by
  have h : ∃ bits, rebuildDefault (exConf (.signed 32) 3) = some bits ∧
      compute (exConf (.signed 32) 3) bits [1, 2, 3] ≠ 0 := ⟨_, rfl, by decide⟩
  obtain ⟨bits, h1, h2⟩ := h
  exact ⟨bits, .default h1, by decide, h2⟩

/-- Two monomials whose masks are compared to no avail: masks may say yes where divisibility fails, so
that the soundness is one-sided. -/
example : ∃ bits, rebuildDefault (exConf (.signed 32) 3) = some bits ∧
    canDivide (compute (exConf (.signed 32) 3) bits [7]) (compute (exConf (.signed 32) 3) bits [6]) = true ∧
    (exConf (.signed 32) 3).divides [7] [6] = false := ⟨_, rfl, by decide, by decide⟩

/-! ## C24 -/

/-- If the mask of a node, updated with all entries below it (`es`) and with any others before and
after, cannot divide the mask of `m`, then no entry below the node divides `m`. -/
theorem lowerBound_reject (hl : c.Lawful) {bits : Bits} (hb : Built c bits) (before es after : List T)
    (m : T)
    (h : canDivide (lowerBound ((before ++ es ++ after).map (compute c bits))) (compute c bits m) = false) :
    ∀ e ∈ es, c.divides e m = false := by
  intro e he
  apply mask_reject hl hb
  cases hd : canDivide (compute c bits e) (compute c bits m) with
  | false => rfl
  | true =>
    rw [lowerBound_canDivide (List.mem_map.mpr ⟨e, by simp [he], rfl⟩) hd] at h
    cases h

/-- Further updates of a mask only make it more permissive. -/
theorem lowerBound_weaken (ms more : List Mask) (m : Mask) (h : canDivide (lowerBound ms) m = true) :
    canDivide (lowerBound (ms ++ more)) m = true := by
  rw [canDivide_iff] at *
  intro k hk hb
  apply h k hk
  unfold lowerBound at *
  rw [foldl_combineAnd] at *
  rw [List.all_append] at hb
  simp only [Bool.and_eq_true] at hb ⊢
  exact ⟨hb.1, hb.2.1⟩

/-- The mask is the exact intersection, the order of updates does not matter. -/
theorem lowerBound_bit (ms : List Mask) (k : ℕ) (hk : k < 32) :
    (lowerBound ms).getLsbD k = true ↔ ∀ m ∈ ms, m.getLsbD k = true := by
  unfold lowerBound maxMask
  rw [foldl_combineAnd, BitVec.getLsbD_not]
  simp [hk]

-- a node above `x^5 y` and `x^4 z` rejects `x y z`
#guard (rebuildDefault (exConf (.signed 32) 3)).map (fun bits =>
  canDivide (lowerBound ([[5, 1, 0], [4, 0, 1]].map (compute (exConf (.signed 32) 3) bits)))
    (compute (exConf (.signed 32) 3) bits [1, 1, 1])) = some false

/-! ## C25 -/

/-- However a calculator was built: it has 32 tests, all on existing variables and shared as evenly as
possible; with no variables it has none. -/
theorem built_tests {bits : Bits} (hb : Built c bits) :
    bits.length = (if c.varCount = 0 then 0 else 32) ∧
    (∀ b ∈ bits, b.1 < c.varCount) ∧
    ∀ v < c.varCount, testsOn bits v = 32 / c.varCount ∨ testsOn bits v = 32 / c.varCount + 1 := by
  obtain ⟨ns, h1, h2, h3, h4⟩ := built_shape hb
  refine ⟨?_, ?_, ?_⟩
  · rw [h1.length]
    split
    · rename_i h0
      rw [h0] at h2
      rw [List.length_eq_zero_iff.mp h2]
      rfl
    · exact h3 (by omega)
  · intro b hb
    have := (h1.range b hb).2
    omega
  · intro v hv
    obtain ⟨j, hj⟩ := h4 v hv
    have := h1.testsOn v
    rw [zero_add, hj] at this
    rw [this]
    simp only [Option.getD_some, share, totalBits]
    by_cases h : j < 32 % c.varCount <;> simp [h]

/-- Bit `31 - i` of the mask of `t` is the outcome of test `i`, which is: the exponent is greater than
the bound. So no test is shifted out of the mask. -/
theorem compute_test {bits : Bits} (hb : Built c bits) (t : T) (i : ℕ) (hi : i < bits.length) :
    (compute c bits t).getLsbD (31 - i) = true ↔ bits[i].2 < c.getExponent t bits[i].1 := by
  have hlen := (built_tests hb).1
  have h32 : bits.length = 32 := by
    split at hlen <;> omega
  rw [compute_getLsbD]
  have h1 : (31 - i) < bits.reverse.length := by simp; omega
  rw [List.getElem?_eq_getElem h1, List.getElem_reverse]
  have h2 : bits.length - 1 - (31 - i) = i := by omega
  simp only [h2, gt_iff_lt, Bool.and_eq_true, decide_eq_true_eq]
  constructor
  · exact fun h => h.2
  · exact fun h => ⟨by omega, h⟩

/-- With no variables all masks are zero. -/
theorem compute_no_vars {bits : Bits} (hb : Built c bits) (h0 : c.varCount = 0) (t : T) :
    compute c bits t = 0 := by
  have := (built_tests hb).1
  rw [if_pos h0, List.length_eq_zero_iff] at this
  subst this
  rfl

/-- No test is wasted: the tests of one variable have strictly increasing bounds (signed exponents). -/
theorem built_increasing_bounds {w : ℕ} (hty : c.ty = .signed w) {bits : Bits} (hb : Built c bits)
    (i j : ℕ) (hij : i < j) (hj : j < bits.length) (hv : bits[i].1 = bits[j].1) :
    bits[i].2 < bits[j].2 :=
  List.pairwise_iff_getElem.mp (built_increasing hty hb) i j (by omega) hj hij hv

/-- The sort of the examples: a stable insertion sort, largest split first. -/
def exSort (l : List VarData) : List VarData := l.mergeSort (fun a b => decide (a.split ≥ b.split))

theorem exSort_isSort : IsSort exSort := fun l => l.mergeSort_perm _

-- three variables: one is constant, the other two get the extra bits
#guard (rebuild (exConf (.signed 32) 3) exSort [[3, 10, 0], [3, 0, 40], [3, 5, 5]]).map
  (fun b => ([0, 1, 2].map (testsOn b), b.take 3, b.drop 29)) =
  some ([10, 11, 11], [(0, 3), (0, 4), (0, 5)], [(2, 24), (2, 27), (2, 30)])

-- more variables than bits
#guard (rebuildDefault (exConf (.signed 32) 40)).map (fun b => (b.length, b.drop 30)) =
  some (32, [(30, 0), (31, 0)])

/-! ## C26 -/

/-- The property fails: with one variable and `int` exponents, `rebuildDefault` overflows. -/
theorem rebuildDefault_overflows (f : T → ℕ → ℤ) (d : T → T → Bool) :
    rebuildDefault ⟨.signed 32, 1, f, d⟩ = none := by
  show defaultVars (.signed 32) 1 0 [] 1 = none
  decide

/-- Hence it is not true that `rebuildDefault` is defined for all `int` configurations. -/
theorem rebuildDefault_not_ok :
    ¬ ∀ c : Conf (List ℤ), c.ty = .signed 32 → ∃ bits, rebuildDefault c = some bits := by
  intro h
  obtain ⟨bits, hb⟩ := h (exConf (.signed 32) 1) rfl
  have := rebuildDefault_overflows (T := List ℤ) (exConf (.signed 32) 1).getExponent
    (exConf (.signed 32) 1).divides
  rw [show exConf (.signed 32) 1 = ⟨.signed 32, 1, (exConf (.signed 32) 1).getExponent,
    (exConf (.signed 32) 1).divides⟩ from rfl, this] at hb
  cases hb

/-- With another number of variables and a signed type of at least 18 bits there is no overflow, and
the tests on each variable have bounds 0, 1, 2, 4, 8, ... (C26 asks this for all numbers of variables.) -/
theorem rebuildDefault_partial {w : ℕ} (hty : c.ty = .signed w) (hw : 18 ≤ w) (hvc : c.varCount ≠ 1) :
    rebuildDefault c = some (defaultBits c.varCount) := by
  have hpow : (2 : ℤ) ^ 17 ≤ 2 ^ (w - 1) := pow_le_pow_right₀ (by norm_num) (by omega)
  have h5 : (2 : ℤ) ^ 16 < 2 ^ 17 := by norm_num
  rw [rebuildDefault, defaultVars_value _ _ _ _ (by omega), ← List.range_eq_range']
  · rfl
  · intro v hv j h1 h2
    have h3 := share_le c.varCount v (by omega)
    rw [hty]
    apply fit_signed
    · positivity
    · have : (2 : ℤ) ^ (j - 1) ≤ 2 ^ 16 := pow_le_pow_right₀ (by norm_num) (by omega)
      omega

/-- A wider signed type has no overflow for any number of variables. -/
theorem rebuildDefault_wide {w : ℕ} (hty : c.ty = .signed w) (hw : 33 ≤ w) :
    rebuildDefault c = some (defaultBits c.varCount) := by
  have hpow : (2 : ℤ) ^ 32 ≤ 2 ^ (w - 1) := pow_le_pow_right₀ (by norm_num) (by omega)
  have h5 : (2 : ℤ) ^ 31 < 2 ^ 32 := by norm_num
  rw [rebuildDefault, defaultVars_value _ _ _ _ (by omega), ← List.range_eq_range']
  · rfl
  · intro v hv j h1 h2
    have h3 := share_le' c.varCount v (by omega)
    rw [hty]
    apply fit_signed
    · positivity
    · have : (2 : ℤ) ^ (j - 1) ≤ 2 ^ 31 := pow_le_pow_right₀ (by norm_num) (by omega)
      omega

/-- An unsigned type of at least 32 bits does not wrap around. -/
theorem rebuildDefault_unsigned {w : ℕ} (hty : c.ty = .unsigned w) (hw : 32 ≤ w) :
    rebuildDefault c = some (defaultBits c.varCount) := by
  have hpow : (2 : ℤ) ^ 32 ≤ 2 ^ w := pow_le_pow_right₀ (by norm_num) hw
  have h5 : (2 : ℤ) ^ 31 < 2 ^ 32 := by norm_num
  rw [rebuildDefault, defaultVars_value _ _ _ _ (by omega), ← List.range_eq_range']
  · rfl
  · intro v hv j h1 h2
    have h3 := share_le' c.varCount v (by omega)
    rw [hty]
    have : (2 : ℤ) ^ (j - 1) ≤ 2 ^ 31 := pow_le_pow_right₀ (by norm_num) (by omega)
    have h0 : (0 : ℤ) ≤ 2 ^ (j - 1) := by positivity
    simp only [ExpTy.fit]
    rw [Int.emod_eq_of_lt h0 (by omega)]

example : (exConf (.signed 32) 5).varCount ≠ 1 := by decide
#guard (rebuildDefault (exConf (.signed 32) 5)).map (·.take 8) =
  some [(0, 0), (0, 1), (0, 2), (0, 4), (0, 8), (0, 16), (0, 32), (1, 0)]

/-! ## C59 -/

/-- The property fails: the largest `int` exponent makes `rebuild` overflow, even in two variables. -/
theorem rebuild_overflows : rebuild (exConf (.signed 32) 2) id [[2 ^ 31 - 1, 2 ^ 31 - 1]] = none := by
  decide

/-- Hence `rebuild` is not defined for all lists of non-negative `int` exponents. -/
theorem rebuild_not_ok : ¬ ∀ entries : List (List ℤ),
    InRange (exConf (.signed 32) 2) entries (2 ^ 31 - 1) →
    ∃ bits, rebuild (exConf (.signed 32) 2) id entries = some bits := by
  intro h
  obtain ⟨bits, hb⟩ := h [[2 ^ 31 - 1, 2 ^ 31 - 1]] (by
    intro t ht v hv
    rw [List.mem_singleton.mp ht]
    have : v < 2 := hv
    have : v = 0 ∨ v = 1 := by omega
    rcases this with rfl | rfl <;> decide)
  rw [rebuild_overflows] at hb
  cases hb

/-- There is no overflow if all exponents are non-negative and at most `2^31 - 32` (for `int`). C59 asks
this for all non-negative exponents and for no entries in one variable too. -/
theorem rebuild_partial {w : ℕ} (hty : c.ty = .signed w) (hw : 18 ≤ w)
    {sort : List VarData → List VarData} (hs : IsSort sort) {entries : List T}
    (hvc : c.varCount ≠ 1 ∨ entries ≠ []) (hin : InRange c entries (2 ^ (w - 1) - 32)) :
    ∃ bits, rebuild c sort entries = some bits :=
  rebuild_defined hty hvc hw hs hin

/-- With unsigned exponents nothing overflows. -/
theorem rebuild_unsigned {w : ℕ} (hty : c.ty = .unsigned w)
    {sort : List VarData → List VarData} (hs : IsSort sort) (entries : List T) :
    ∃ bits, rebuild c sort entries = some bits :=
  rebuild_unsigned_defined hty hs entries

example : InRange (exConf (.signed 32) 2) [[2 ^ 31 - 32, 0], [5, 2 ^ 30]] (2 ^ (32 - 1) - 32) := by
  intro t ht v hv
  have : v < 2 := hv
  have : v = 0 ∨ v = 1 := by omega
  simp only [List.mem_cons, List.not_mem_nil, or_false] at ht
  rcases ht with rfl | rfl <;> rcases this with rfl | rfl <;> decide

end Verif.DivMask
