import Verif.Print
import Verif.PrintSpec
import Verif.NamesProofs
import Mathlib.Data.Nat.Prime.Basic

/-! # Lemmas on printed text -/

namespace Verif.Print

open Verif.Text (decimal decimal_digits)
open Verif.Name (span_eq ends_cons Ends decimal_append)

variable {E : Type} {sh : E → List Char} {unit : ℕ}

theorem isPow_mul {j i : ℕ} (hi : i ≠ 0) : (2 ^ j * i) &&& (2 ^ j * i - 1) = 0 ↔ ∃ k, i = 2 ^ k := by
  have h0 : 2 ^ j * i ≠ 0 := Nat.mul_ne_zero (Nat.pos_iff_ne_zero.1 (Nat.two_pow_pos j)) hi
  rw [Nat.and_sub_one_eq_zero_iff_isPowerOfTwo h0]
  constructor
  · rintro ⟨n, hn⟩
    have hd : i ∣ 2 ^ n := ⟨2 ^ j, by rw [← hn, Nat.mul_comm]⟩
    obtain ⟨k, _, hk⟩ := (Nat.dvd_prime_pow Nat.prime_two).1 hd
    exact ⟨k, hk⟩
  · rintro ⟨k, rfl⟩
    exact ⟨j + k, by rw [Nat.pow_add]⟩

theorem treeLoop_append : ∀ (i : ℕ) (a b : List E), treeLoop sh unit i (a ++ b) = treeLoop sh unit i a ++ treeLoop sh unit (i + a.length) b
  | _, [], _ => rfl
  | i, e :: a, b => by
    rw [List.cons_append, treeLoop, treeLoop, treeLoop_append (i + 1) a b, List.length_cons]
    rw [show i + 1 + a.length = i + (a.length + 1) by omega]
    simp only [List.append_assoc]

theorem treeLoop_plain {j k : ℕ} : ∀ (i : ℕ) (l : List E), 2 ^ k < i → i + l.length ≤ 2 ^ (k + 1) →
    treeLoop sh (2 ^ j) i l = l.flatMap (fun e => ' ' :: sh e)
  | _, [], _, _ => rfl
  | i, e :: l, h1, h2 => by
    rw [List.length_cons] at h2
    rw [treeLoop, if_neg, treeLoop_plain (k := k) (i + 1) l (by omega) (by omega), List.flatMap_cons, List.nil_append]
    rw [isPow_mul (by omega)]
    rintro ⟨n, rfl⟩
    have a1 := (Nat.pow_lt_pow_iff_right (a := 2) (by decide)).1 h1
    have a2 := (Nat.pow_lt_pow_iff_right (a := 2) (by decide)).1 (show 2 ^ n < 2 ^ (k + 1) by omega)
    omega

theorem treeLoop_row {j k : ℕ} {l : List E} (h0 : l ≠ []) (hl : l.length ≤ 2 ^ k) :
    treeLoop sh (2 ^ j) (2 ^ k) l = row sh (2 ^ j * 2 ^ k) l := by
  obtain ⟨e, l, rfl⟩ := List.exists_cons_of_ne_nil h0
  rw [List.length_cons] at hl
  have hk : 0 < 2 ^ k := Nat.two_pow_pos k
  rw [treeLoop, if_pos ((isPow_mul (by omega)).2 ⟨k, rfl⟩),
    treeLoop_plain (k := k) (2 ^ k + 1) l (by omega) (by rw [Nat.pow_succ]; omega)]
  unfold row
  rw [List.flatMap_cons]
  simp only [List.append_assoc]

theorem treeLoop_rows {j : ℕ} (t : List E) : ∀ (d k : ℕ), k + d = Nat.size t.length →
    treeLoop sh (2 ^ j) (2 ^ k) (t.drop (2 ^ k - 1)) =
      (List.range' k d).flatMap (fun k => row sh (2 ^ j * 2 ^ k) (depth t k))
  | 0, k, h => by
    have : t.length < 2 ^ k := Nat.size_le.1 (by omega)
    rw [List.drop_eq_nil_of_le (by omega)]
    rfl
  | d + 1, k, h => by
    have h1 : 2 ^ k ≤ t.length := Nat.lt_size.1 (by omega)
    have hk : 0 < 2 ^ k := Nat.two_pow_pos k
    have e : t.drop (2 ^ k - 1) = depth t k ++ t.drop (2 ^ (k + 1) - 1) := by
      unfold depth
      conv_lhs => rw [← List.take_append_drop (2 ^ k) (t.drop (2 ^ k - 1))]
      rw [List.drop_drop, show 2 ^ k - 1 + 2 ^ k = 2 ^ (k + 1) - 1 by rw [Nat.pow_succ]; omega]
    have hlen : (depth t k).length = min (2 ^ k) (t.length - (2 ^ k - 1)) := by
      unfold depth
      rw [List.length_take, List.length_drop]
    rw [e, treeLoop_append, List.range'_succ, List.flatMap_cons]
    rw [treeLoop_row (by rw [← List.length_pos_iff]; omega) (by omega)]
    congr 1
    by_cases hfull : (depth t k).length = 2 ^ k
    · rw [hfull, show 2 ^ k + 2 ^ k = 2 ^ (k + 1) by rw [Nat.pow_succ]; omega]
      exact treeLoop_rows t d (k + 1) (by omega)
    · have hn : t.length < 2 ^ (k + 1) := by rw [Nat.pow_succ]; omega
      have hd : d = 0 := by
        have := Nat.size_le.2 hn
        omega
      rw [List.drop_eq_nil_of_le (by omega), hd]
      rfl

theorem comTree_table {j : ℕ} (t : List E) : comTree sh (2 ^ j) t = table sh (fun k => 2 ^ j * 2 ^ k) t ++ "}\n".toList := by
  unfold comTree table
  have := treeLoop_rows (sh := sh) (j := j) t (Nat.size t.length) 0 (by omega)
  rw [Nat.pow_zero, Nat.sub_self, List.drop_zero] at this
  rw [this, List.range_eq_range']

/-! ## Reading back -/

theorem lnl : "\n ".toList = ['\n', ' '] := rfl
theorem lcb : "}\n".toList = ['}', '\n'] := rfl

theorem treeLoop_head {bad : List Char} (h1 : ' ' ∈ bad) (h2 : '\n' ∈ bad) (h3 : '}' ∈ bad) (i : ℕ) (l : List E) (r : List Char) :
    Ends (fun c => decide (c ∉ bad)) (treeLoop sh unit i l ++ '}' :: r) := by
  cases l with
  | nil => exact ends_cons (by simpa using h3)
  | cons e l =>
    rw [treeLoop]
    by_cases hp : (unit * i) &&& (unit * i - 1) = 0
    · rw [if_pos hp, lnl]
      exact ends_cons (c := '\n') (by simpa using h2)
    · rw [if_neg hp]
      exact ends_cons (c := ' ') (by simpa using h1)

theorem treeLoop_inj {bad : List Char} (hs : Legible sh bad) (h1 : ' ' ∈ bad) (h2 : '\n' ∈ bad) (h3 : '}' ∈ bad) :
    ∀ (i : ℕ) (l l' : List E) (r r' : List Char), treeLoop sh unit i l ++ '}' :: r = treeLoop sh unit i l' ++ '}' :: r' →
      l = l'
  | _, [], [], _, _, _ => rfl
  | i, [], e :: l', r, r', h => by
    exfalso
    rw [treeLoop, treeLoop] at h
    have := congrArg List.head? h
    by_cases hp : (unit * i) &&& (unit * i - 1) = 0
    · rw [if_pos hp, lnl] at this
      exact absurd (show some '}' = some '\n' from this) (by decide)
    · rw [if_neg hp] at this
      exact absurd (show some '}' = some ' ' from this) (by decide)
  | i, e :: l, [], r, r', h => by
    exfalso
    rw [treeLoop, treeLoop] at h
    have := congrArg List.head? h
    by_cases hp : (unit * i) &&& (unit * i - 1) = 0
    · rw [if_pos hp, lnl] at this
      exact absurd (show some '\n' = some '}' from this) (by decide)
    · rw [if_neg hp] at this
      exact absurd (show some ' ' = some '}' from this) (by decide)
  | i, e :: l, e' :: l', r, r', h => by
    rw [treeLoop, treeLoop] at h
    simp only [List.append_assoc, List.cons_append] at h
    have h := (List.cons.inj (List.append_cancel_left h)).2
    obtain ⟨a1, a2⟩ := span_eq (p := fun c => decide (c ∉ bad)) (fun c hc => by simpa using hs.clean e c hc)
      (fun c hc => by simpa using hs.clean e' c hc) (treeLoop_head h1 h2 h3 _ _ _) (treeLoop_head h1 h2 h3 _ _ _) h
    rw [hs.inj _ _ a1, treeLoop_inj hs h1 h2 h3 (i + 1) l l' r r' a2]

theorem tokens_head {bad : List Char} {x : Char} (h1 : ' ' ∈ bad) (hx : x ∈ bad) (l : List E) (r : List Char) :
    Ends (fun c => decide (c ∉ bad)) (l.flatMap (fun e => ' ' :: sh e) ++ x :: r) := by
  cases l with
  | nil => exact ends_cons (by simpa using hx)
  | cons e l => exact ends_cons (c := ' ') (by simpa using h1)

/-- Entries up to a character `x`. -/
theorem tokens_inj {bad : List Char} {x : Char} (hs : Legible sh bad) (h1 : ' ' ∈ bad) (hx : x ∈ bad) (hx' : x ≠ ' ') :
    ∀ (l l' : List E) (r r' : List Char), l.flatMap (fun e => ' ' :: sh e) ++ x :: r = l'.flatMap (fun e => ' ' :: sh e) ++ x :: r' →
      l = l' ∧ r = r'
  | [], [], _, _, h => ⟨rfl, (List.cons.inj h).2⟩
  | [], e :: l', r, r', h => absurd (List.cons.inj h).1 hx'
  | e :: l, [], r, r', h => absurd (List.cons.inj h).1.symm hx'
  | e :: l, e' :: l', r, r', h => by
    simp only [List.flatMap_cons, List.append_assoc, List.cons_append] at h
    have h := (List.cons.inj h).2
    obtain ⟨a1, a2⟩ := span_eq (p := fun c => decide (c ∉ bad)) (fun c hc => by simpa using hs.clean e c hc)
      (fun c hc => by simpa using hs.clean e' c hc) (tokens_head h1 hx _ _) (tokens_head h1 hx _ _) h
    obtain ⟨a3, a4⟩ := tokens_inj hs h1 hx hx' l l' r r' a2
    exact ⟨by rw [hs.inj _ _ a1, a3], a4⟩

/-! ## Buckets -/

/-- The words written for the entries of a bucket. -/
def words (sh : E → List Char) (l : List E) : List (List Char) :=
  if l.length > 4 then (glimpse l).take 2 |>.map sh |>.append (['.', '.', '.'] :: ((glimpse l).drop 2).map sh) else l.map sh

theorem glimpse_big {l : List E} (h : l.length > 4) : ∃ x₀ x₁ y₀ y₁, l[0]? = some x₀ ∧ l[1]? = some x₁ ∧
    l[l.length - 2]? = some y₀ ∧ l[l.length - 1]? = some y₁ ∧ glimpse l = [x₀, x₁, y₀, y₁] := by
  have h0 : 0 < l.length := by omega
  have h1 : 1 < l.length := by omega
  have h2 : l.length - 2 < l.length := by omega
  have h3 : l.length - 1 < l.length := by omega
  refine ⟨l[0], l[1], l[l.length - 2], l[l.length - 1], by simp, by simp, by simp, by simp, ?_⟩
  unfold glimpse
  rw [if_neg (by omega)]
  have e1 : l.take 2 = [l[0], l[1]] := by
    apply List.ext_getElem?
    intro n
    rcases n with _ | _ | n
    · simp
    · simp
    · simp
  have e2 : l.drop (l.length - 2) = [l[l.length - 2], l[l.length - 1]] := by
    rw [List.drop_eq_getElem_cons h2]
    congr 1
    rw [List.drop_eq_getElem_cons (by omega)]
    have : l.length - 2 + 1 = l.length - 1 := by omega
    simp only [this]
    rw [show l.length - 1 + 1 = l.length by omega, List.drop_length]
  rw [e1, e2]
  rfl

theorem bucketEntries_words (l : List E) : bucketEntries sh l = some ((words sh l).flatMap (fun w => ' ' :: w)) := by
  unfold bucketEntries words
  by_cases h : l.length > 4
  · obtain ⟨x₀, x₁, y₀, y₁, a0, a1, a2, a3, a4⟩ := glimpse_big h
    rw [if_pos h, if_pos h, a0, a1, a2, a3, a4]
    have e : " ... ".toList = [' ', '.', '.', '.', ' '] := rfl
    rw [e]
    simp
  · rw [if_neg h, if_neg h]
    rw [List.flatMap_map]

/-- The words tell the entries shown and whether there are more. -/
theorem words_inj {bad : List Char} (hs : Legible sh bad) {l l' : List E} (hl : l.length = l'.length) (h : words sh l = words sh l') :
    glimpse l = glimpse l' := by
  have hi : Function.Injective sh := fun a b h => hs.inj a b h
  unfold words at h
  by_cases h4 : l.length > 4
  · rw [if_pos h4, if_pos (by omega)] at h
    obtain ⟨x₀, x₁, y₀, y₁, -, -, -, -, a4⟩ := glimpse_big h4
    obtain ⟨x₀', x₁', y₀', y₁', -, -, -, -, a4'⟩ := glimpse_big (l := l') (by omega)
    rw [a4, a4'] at h ⊢
    have h : [sh x₀, sh x₁, ['.', '.', '.'], sh y₀, sh y₁] = [sh x₀', sh x₁', ['.', '.', '.'], sh y₀', sh y₁'] := h
    simp only [List.cons.injEq, and_true, true_and] at h
    rw [hi h.1, hi h.2.1, hi h.2.2.1, hi h.2.2.2]
  · rw [if_neg h4, if_neg (by omega)] at h
    rw [List.map_injective_iff.2 hi h]

theorem words_clean {bad : List Char} (hs : Legible sh bad) (hd : '.' ∉ bad) {l : List E} : ∀ w ∈ words sh l, ∀ ch ∈ w, ch ∉ bad := by
  intro w hw ch hch
  unfold words at hw
  split at hw
  · rename_i h
    obtain ⟨x₀, x₁, y₀, y₁, -, -, -, -, a4⟩ := glimpse_big h
    rw [a4] at hw
    have hw : w ∈ [sh x₀, sh x₁, ['.', '.', '.'], sh y₀, sh y₁] := hw
    simp only [List.mem_cons, List.not_mem_nil, or_false] at hw
    rcases hw with rfl | rfl | rfl | rfl | rfl
    · exact hs.clean _ ch hch
    · exact hs.clean _ ch hch
    · simp only [List.mem_cons, List.not_mem_nil, or_false, or_self] at hch
      rw [hch]
      exact hd
    · exact hs.clean _ ch hch
    · exact hs.clean _ ch hch
  · obtain ⟨e, _, rfl⟩ := List.mem_map.1 hw
    exact hs.clean e ch hch

/-- Words up to a space and a bracket. -/
theorem bracket_inj : ∀ (l l' : List (List Char)) (r r' : List Char), (∀ w ∈ l, ' ' ∉ w ∧ '[' ∉ w) →
    (∀ w ∈ l', ' ' ∉ w ∧ '[' ∉ w) →
    l.flatMap (fun w => ' ' :: w) ++ ' ' :: '[' :: r = l'.flatMap (fun w => ' ' :: w) ++ ' ' :: '[' :: r' → l = l' ∧ r = r'
  | [], [], _, _, _, _, h => ⟨rfl, (List.cons.inj (List.cons.inj h).2).2⟩
  | [], w :: l', r, r', _, h', h => by
    exfalso
    simp only [List.flatMap_cons, List.flatMap_nil, List.nil_append, List.append_assoc, List.cons_append] at h
    have h := (List.cons.inj h).2
    cases w with
    | nil =>
      cases l' with
      | nil => exact absurd (List.cons.inj h).1 (by decide)
      | cons v l' => exact absurd (List.cons.inj h).1 (by decide)
    | cons ch w =>
      have := (List.cons.inj h).1
      exact (h' (ch :: w) (by simp)).2 (by simp [← this])
  | w :: l, [], r, r', h', _, h => by
    exfalso
    simp only [List.flatMap_cons, List.flatMap_nil, List.nil_append, List.append_assoc, List.cons_append] at h
    have h := (List.cons.inj h).2
    cases w with
    | nil =>
      cases l with
      | nil => exact absurd (List.cons.inj h).1 (by decide)
      | cons v l' => exact absurd (List.cons.inj h).1 (by decide)
    | cons ch w =>
      have := (List.cons.inj h).1
      exact (h' (ch :: w) (by simp)).2 (by simp [this])
  | w :: l, w' :: l', r, r', h1, h2, h => by
    have hend : ∀ (l : List (List Char)) (r : List Char), Ends (fun c => c != ' ') (l.flatMap (fun w => ' ' :: w) ++ ' ' :: r) := by
      intro l r
      cases l with
      | nil => exact ends_cons (by decide)
      | cons v l => exact ends_cons (c := ' ') (by decide)
    have hc : ∀ w : List Char, ' ' ∉ w → ∀ c ∈ w, (c != ' ') = true := by
      intro w hw c hc
      simp only [bne_iff_ne, ne_eq]
      rintro rfl
      exact hw hc
    simp only [List.flatMap_cons, List.append_assoc, List.cons_append] at h
    obtain ⟨a1, a2⟩ := span_eq (p := fun c => c != ' ') (hc w (h1 w (by simp)).1) (hc w' (h2 w' (by simp)).1)
      (hend l _) (hend l' _) (List.cons.inj h).2
    obtain ⟨a3, a4⟩ := bracket_inj l l' r r' (fun v hv => h1 v (List.mem_cons_of_mem _ hv))
      (fun v hv => h2 v (List.mem_cons_of_mem _ hv)) a2
    exact ⟨by rw [a1, a3], a4⟩

/-- The line of a bucket. -/
def line (sh : E → List Char) (i : ℕ) (b : Geobucket.Bucket E) : List Char :=
  ' ' :: (decimal i ++ ':' :: ((words sh b.es).flatMap (fun w => ' ' :: w) ++ ' ' :: '[' :: (decimal b.es.length ++ '/' ::
    (decimal b.cap ++ [']', '\n']))))

/-- The lines of buckets. -/
def lines (sh : E → List Char) : ℕ → List (Geobucket.Bucket E) → List Char
  | _, [] => []
  | i, b :: bs => line sh i b ++ lines sh (i + 1) bs

theorem bucketLoop_lines : ∀ (i : ℕ) (bs : List (Geobucket.Bucket E)), bucketLoop sh i bs = some (lines sh i bs)
  | _, [] => rfl
  | i, b :: bs => by
    rw [bucketLoop, bucketEntries_words, bucketLoop_lines (i + 1) bs]
    have e1 : " [".toList = [' ', '['] := rfl
    have e2 : "]\n".toList = [']', '\n'] := rfl
    rw [e1, e2]
    simp [lines, line]

theorem lines_inj (hs : Legible sh [' ', '[']) : ∀ (i : ℕ) (bs bs' : List (Geobucket.Bucket E)) (r r' : List Char),
    lines sh i bs ++ '}' :: r = lines sh i bs' ++ '}' :: r' → List.Forall₂ Alike bs bs'
  | _, [], [], _, _, _ => .nil
  | _, [], b :: bs, r, r', h => absurd (List.cons.inj h).1 (by decide)
  | _, b :: bs, [], r, r', h => absurd (List.cons.inj h).1 (by decide)
  | i, b :: bs, b' :: bs', r, r', h => by
    simp only [lines, line, List.append_assoc, List.cons_append] at h
    have h := (List.cons.inj (List.append_cancel_left (List.cons.inj h).2)).2
    have hc : ∀ (l : List E), ∀ w ∈ words sh l, ' ' ∉ w ∧ '[' ∉ w := by
      intro l w hw
      have := words_clean hs (by decide) w hw
      exact ⟨fun hm => this _ hm (by decide), fun hm => this _ hm (by decide)⟩
    obtain ⟨h1, h⟩ := bracket_inj _ _ _ _ (hc _) (hc _) h
    obtain ⟨h2, h⟩ := decimal_append (ends_cons (by decide)) (ends_cons (by decide)) h
    obtain ⟨h3, h⟩ := decimal_append (ends_cons (by decide)) (ends_cons (by decide)) (List.cons.inj h).2
    simp only [List.cons.injEq, true_and, List.nil_append] at h
    exact .cons ⟨h2, h3, words_inj hs h2 h1⟩ (lines_inj hs (i + 1) bs bs' r r' h)

theorem words_eq {l l' : List E} (hl : l.length = l'.length) (h : glimpse l = glimpse l') : words sh l = words sh l' := by
  unfold words
  by_cases h4 : l.length > 4
  · rw [if_pos h4, if_pos (by omega), h]
  · rw [if_neg h4, if_neg (by omega)]
    unfold glimpse at h
    rw [if_pos (by omega), if_pos (by omega)] at h
    rw [h]

theorem lines_eq : ∀ (i : ℕ) {bs bs' : List (Geobucket.Bucket E)}, List.Forall₂ Alike bs bs' → lines sh i bs = lines sh i bs'
  | _, _, _, .nil => rfl
  | i, _, _, .cons ⟨h1, h2, h3⟩ t => by
    rw [lines, lines, line, line, h1, h2, words_eq h1 h3, lines_eq (i + 1) t]

/-! ## Braces -/

theorem count_treeLoop {x : Char} (hx : x ≠ ' ' ∧ x ≠ '\n' ∧ x ≠ ':') (hd : x.isDigit = false) (hs : ∀ e, x ∉ sh e) :
    ∀ (i : ℕ) (l : List E), (treeLoop sh unit i l).count x = 0
  | _, [] => rfl
  | i, e :: l => by
    rw [treeLoop, List.count_append, List.count_append, count_treeLoop hx hd hs (i + 1) l]
    have h1 : (' ' :: sh e).count x = 0 := by
      rw [List.count_eq_zero]
      simp [hx.1, hs e]
    rw [h1]
    split
    · rw [lnl, List.count_eq_zero.2]
      simp only [List.mem_append, List.mem_cons, List.not_mem_nil, or_false, not_or]
      refine ⟨⟨⟨hx.2.1, hx.1⟩, fun hm => ?_⟩, hx.2.2⟩
      have := decimal_digits _ _ hm
      rw [hd] at this
      exact absurd this (by decide)
    · rfl

theorem count_lines {x : Char} (hx : x ≠ ' ' ∧ x ≠ ':' ∧ x ≠ '[' ∧ x ≠ '/' ∧ x ≠ ']' ∧ x ≠ '\n' ∧ x ≠ '.') (hd : x.isDigit = false)
    (hs : ∀ e, x ∉ sh e) : ∀ (i : ℕ) (bs : List (Geobucket.Bucket E)), x ∉ lines sh i bs
  | _, [] => by simp [lines]
  | i, b :: bs => by
    have hdec : ∀ n, x ∉ decimal n := by
      intro n hm
      have := decimal_digits _ _ hm
      rw [hd] at this
      exact absurd this (by decide)
    have hw : ∀ w ∈ words sh b.es, x ∉ w := by
      intro w hw
      unfold words at hw
      split at hw
      · rename_i h
        obtain ⟨x₀, x₁, y₀, y₁, -, -, -, -, a4⟩ := glimpse_big h
        rw [a4] at hw
        have hw : w ∈ [sh x₀, sh x₁, ['.', '.', '.'], sh y₀, sh y₁] := hw
        simp only [List.mem_cons, List.not_mem_nil, or_false] at hw
        rcases hw with rfl | rfl | rfl | rfl | rfl
        · exact hs _
        · exact hs _
        · simp [hx]
        · exact hs _
        · exact hs _
      · obtain ⟨e, _, rfl⟩ := List.mem_map.1 hw
        exact hs e
    have ih := count_lines hx hd hs (i + 1) bs
    simp only [lines, line, List.mem_append, List.mem_cons, List.mem_flatMap, not_or, List.not_mem_nil, or_false, not_exists, not_and]
    exact ⟨⟨hx.1, hdec _, hx.2.1, fun w hm => ⟨hx.1, hw w hm⟩, hx.1, hx.2.2.1, hdec _, hx.2.2.2.1, hdec _, hx.2.2.2.2.1,
      hx.2.2.2.2.2.1⟩, ih⟩

end Verif.Print
