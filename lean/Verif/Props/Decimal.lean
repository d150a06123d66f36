import Verif.Proofs.Sample
import Verif.Proofs.DecimalTrunc
import Verif.Proofs.DecimalRound
/-
Properties of the multiprecision decimals of internal/strconv/decimal.go (C40, C41 of properties.jsonl).
-/
namespace GoFloat.Strconv
open Spec

/-! ### C40 -/

/-- The decimal `b` is exactly `q`, in normal form, within the array. -/
def IsExactDecimal (b : Decimal) (q : ℚ) : Prop :=
  NormalDec b.d b.dp ∧ b.d.length ≤ 800 ∧ decValue b.d b.dp = q ∧ b.neg = false ∧ b.trunc = false

/-- C40: assigning a word and shifting by any number of bits is exact as long as the result has at most 800 digits, on
32- and 64-bit hosts. -/
theorem C40_assign_shift {W : ℕ} (hW : W = 32 ∨ W = 64) (v : BitVec 64) (k : ℤ) (h : FitsDigits 800 ((v.toNat : ℚ) * 2 ^ k)) :
    ∃ b, (Decimal.new.assign v).shift W k = .ok b ∧ IsExactDecimal b ((v.toNat : ℚ) * 2 ^ k) := by
  obtain ⟨a1, a2, a3, a4⟩ := assign_spec Decimal.new v
  have hl := assign_length Decimal.new v
  obtain ⟨b, b1, b2, b3, b4, b5, b6, -⟩ := shift_ok hW (Decimal.new.assign v) k a1 (by omega) (by rw [a2]; exact h)
  exact ⟨b, b1, b2, b3, by rw [b4, a2], by rw [b5, a3]; rfl, by rw [b6, a4]; rfl⟩

-- 1/8 = 0.125
example := C40_assign_shift (W := 64) (.inr rfl) 1 (-3) ⟨125, -3, by decide +kernel, by rw [show (1 : BitVec 64).toNat = 1 from rfl]; norm_num⟩

/-- C40: in particular for the mantissa and exponent of every float64 (and far beyond). -/
theorem C40_assign_shift_float {W : ℕ} (hW : W = 32 ∨ W = 64) (v : BitVec 64) (k : ℤ) (h1 : -1100 ≤ k) (h2 : k ≤ 2500) :
    ∃ b, (Decimal.new.assign v).shift W k = .ok b ∧ IsExactDecimal b ((v.toNat : ℚ) * 2 ^ k) :=
  C40_assign_shift hW v k (fits_word v.isLt h1 h2)

/-- C40: the same for every decimal in normal form, hence for any sequence of shifts. -/
theorem C40_shift {W : ℕ} (hW : W = 32 ∨ W = 64) (a : Decimal) (q : ℚ) (k : ℤ) (ha : IsExactDecimal a q) (h : FitsDigits 800 (q * 2 ^ k)) :
    ∃ b, a.shift W k = .ok b ∧ IsExactDecimal b (q * 2 ^ k) := by
  obtain ⟨a1, a2, a3, a4, a5⟩ := ha
  obtain ⟨b, b1, b2, b3, b4, b5, b6, -⟩ := shift_ok hW a k a1 a2 (by rw [a3]; exact h)
  exact ⟨b, b1, b2, b3, by rw [b4, a3], by rw [b5, a4], by rw [b6, a5]⟩

-- 12 = 1.5 * 2^3
example := C40_shift (W := 64) (.inr rfl) { d := [1, 5], dp := 1, neg := false, trunc := false } (3 / 2) 3
  ⟨⟨by decide, by decide, by decide, by decide⟩, by decide, by norm_num [decValue], rfl, rfl⟩ ⟨12, 0, by decide +kernel, by norm_num⟩

/-- C40: the normal form is unique, so the result is the same on 32- and 64-bit hosts, however the shift is split. -/
theorem C40_unique (a b : Decimal) (q : ℚ) (ha : IsExactDecimal a q) (hb : IsExactDecimal b q) : a = b := by
  obtain ⟨a1, a2, a3, a4, a5⟩ := ha
  obtain ⟨b1, b2, b3, b4, b5⟩ := hb
  obtain ⟨h1, h2⟩ := normal_unique a1 b1 (by rw [a3, b3])
  rcases a with ⟨ad, adp, an, at'⟩
  rcases b with ⟨bd, bdp, bn, bt⟩
  simp_all

example : ∃ b, (Decimal.new.assign 1).shift 32 (-1074) = .ok b ∧ IsExactDecimal b ((1 : ℚ) * 2 ^ (-1074 : ℤ)) :=
  C40_assign_shift_float (Or.inl rfl) 1 (-1074) (by norm_num) (by norm_num)

example : (Decimal.new.assign 3).shift 64 (-3) = .ok { d := [3, 7, 5], dp := 0, neg := false, trunc := false } := by decide +kernel

/-- C40: in general, when the result may have more digits than there is room for: shifting never fails and gives a decimal
of at most 800 digits that is never too large, and too small by a relative error of less than 10^-799 for each of the steps of
28 (32-bit hosts) or 60 bits that the shift is made in. `trunc` is set exactly if something has been lost, now or before. -/
theorem C40_shift_any {W : ℕ} (hW : W = 32 ∨ W = 64) (a : Decimal) (k : ℤ) (ha : NormalDec a.d a.dp) (hl : a.d.length ≤ 800)
    (h0 : a.d ≠ []) (hk : k ≠ 0) :
    ∃ b, a.shift W k = .ok b ∧ NormalDec b.d b.dp ∧ b.d ≠ [] ∧ b.d.length ≤ 800 ∧ b.neg = a.neg ∧
      decValue b.d b.dp ≤ decValue a.d a.dp * 2 ^ k ∧
      decValue a.d a.dp * 2 ^ k < decValue b.d b.dp * (1 + 1 / 10 ^ 799) ^ ((k.natAbs + (W - 5)) / (W - 4)) ∧
      (b.trunc = true ↔ a.trunc = true ∨ decValue b.d b.dp < decValue a.d a.dp * 2 ^ k) := by
  obtain ⟨b, b1, c1, c2, c3, c4, c5, c6, c7⟩ := shift_any hW a k ha hl h0 hk
  have hm : maxShift W = W - 4 := by rcases hW with rfl | rfl <;> rfl
  rw [hm, show W - 4 - 1 = W - 5 by omega] at c5
  exact ⟨b, b1, c1, c2, c3, c6, c4, c5, c7⟩

example := C40_shift_any (W := 64) (.inr rfl) { d := [1, 5], dp := 1, neg := false, trunc := false } (-7) ⟨by decide, by decide, by decide, by decide⟩ (by decide) (by decide) (by decide)

/-- C40: one step of a shift rounds the exact result down to 800 significant digits. -/
theorem C40_shift_step {W : ℕ} (hW : W = 32 ∨ W = 64) (a : Decimal) (k : ℤ) (ha : NormalDec a.d a.dp) (hl : a.d.length ≤ 800)
    (h0 : a.d ≠ []) (hk : k ≠ 0) (hk1 : k.natAbs ≤ W - 4) :
    ∃ b, a.shift W k = .ok b ∧ ∃ e : ℤ, (10 : ℚ) ^ 799 ≤ decValue a.d a.dp * 2 ^ k / 10 ^ e ∧
      decValue a.d a.dp * 2 ^ k / 10 ^ e < 10 ^ 800 ∧
      decValue b.d b.dp = ⌊decValue a.d a.dp * 2 ^ k / 10 ^ e⌋ * 10 ^ e := by
  have hm : maxShift W = W - 4 := by rcases hW with rfl | rfl <;> rfl
  exact shift_floor hW a k ha hl h0 hk (by rw [hm]; exact hk1)

/-- A quarter of `10^799 + 1` has 801 digits. The last one is lost. -/
example : (Decimal.shift 64 { d := 1 :: List.replicate 798 0 ++ [1], dp := 800, neg := false, trunc := false } (-2)) =
    .ok { d := 2 :: 5 :: List.replicate 797 0 ++ [2], dp := 799, neg := false, trunc := true } := by decide +kernel

example : NormalDec (1 :: List.replicate 798 0 ++ [1]) 800 ∧ (1 :: List.replicate 798 0 ++ [1]).length ≤ 800 :=
  ⟨⟨by decide +kernel, by decide +kernel, by decide +kernel, fun h => absurd h (by decide +kernel)⟩, by decide +kernel⟩

/-! ### C41 -/

/-- C41: `Round` gives the nearest multiple of a unit of the `nd`-th digit, half to even, in normal form; if nonzero digits
have been dropped before, this is still true of every number the digits may stand for. -/
theorem C41_round (a : Decimal) (ha : NormalDec a.d a.dp) (nd : ℕ) (h : nd < a.d.length) (y : ℚ)
    (hy : Represents a.d a.dp a.trunc y) :
    NormalDec (a.round nd).d (a.round nd).dp ∧ (a.round nd).d.length ≤ max nd 1 ∧ (a.round nd).neg = a.neg ∧
      ∃ m : ℕ, NearestEven (y / (10 : ℚ) ^ (a.dp - nd)) m ∧
        decValue (a.round nd).d (a.round nd).dp = m * (10 : ℚ) ^ (a.dp - nd) := by
  obtain ⟨r1, r2, r3, r4, -⟩ := round_spec ha h hy
  exact ⟨r1, r2, r4, r3⟩

-- 99.95 to three digits
example := C41_round { d := [9, 9, 9, 5], dp := 2, neg := false, trunc := false } ⟨by decide, by decide, by decide, by decide⟩ 3 (by decide) (9995 / 100)
  (by norm_num [Represents, decValue])

/-- C41: `RoundDown` truncates. -/
theorem C41_roundDown (a : Decimal) (ha : NormalDec a.d a.dp) (nd : ℕ) (h : nd < a.d.length) :
    NormalDec (a.roundDown nd).d (a.roundDown nd).dp ∧ (a.roundDown nd).d.length ≤ nd ∧ (a.roundDown nd).neg = a.neg ∧
      ∃ m : ℕ, m = ⌊decValue a.d a.dp / (10 : ℚ) ^ (a.dp - nd)⌋ ∧
        decValue (a.roundDown nd).d (a.roundDown nd).dp = m * (10 : ℚ) ^ (a.dp - nd) := by
  obtain ⟨r1, r2, r3, r4, -⟩ := roundDown_spec ha h
  refine ⟨r1, r2, r4, _, ?_, r3⟩
  exact (floor_units ha h).symm

example := C41_roundDown { d := [9, 9, 9, 5], dp := 2, neg := false, trunc := false } ⟨by decide, by decide, by decide, by decide⟩ 3 (by decide)

/-- C41: `RoundUp` gives the next multiple of the unit above the truncated value. -/
theorem C41_roundUp (a : Decimal) (ha : NormalDec a.d a.dp) (nd : ℕ) (h : nd < a.d.length) :
    NormalDec (a.roundUp nd).d (a.roundUp nd).dp ∧ (a.roundUp nd).d.length ≤ max nd 1 ∧ (a.roundUp nd).neg = a.neg ∧
      ∃ m : ℕ, m = ⌈decValue a.d a.dp / (10 : ℚ) ^ (a.dp - nd)⌉ ∧
        decValue (a.roundUp nd).d (a.roundUp nd).dp = m * (10 : ℚ) ^ (a.dp - nd) := by
  obtain ⟨r1, r2, r3, r4, -⟩ := roundUp_spec ha h
  refine ⟨r1, r2, r4, _, ?_, r3⟩
  exact (ceil_units ha h).symm

example := C41_roundUp { d := [9, 9, 9, 5], dp := 2, neg := false, trunc := false } ⟨by decide, by decide, by decide, by decide⟩ 3 (by decide)

/-- C41: with as many digits as there are, or more, or a negative number, nothing changes. -/
theorem C41_unchanged (a : Decimal) (nd : ℤ) (h : nd < 0 ∨ (a.d.length : ℤ) ≤ nd) :
    a.round nd = a ∧ a.roundDown nd = a ∧ a.roundUp nd = a :=
  ⟨if_pos h, if_pos h, if_pos h⟩

example := C41_unchanged { d := [9, 9, 9, 5], dp := 2, neg := false, trunc := false } 4 (by decide)

/-- C41: `RoundedInteger` is the nearest integer, half to even, if that is below 2^64 (and, if digits have been dropped,
the decimal point is not beyond the last digit). -/
theorem C41_roundedInteger (a : Decimal) (ha : NormalDec a.d a.dp) (y : ℚ) (hy : Represents a.d a.dp a.trunc y)
    (hdp : a.trunc = false ∨ a.dp < a.d.length) (m : ℕ) (hm : NearestEven y m) (hlt : m < 2 ^ 64) : a.roundedInteger.toNat = m :=
  roundedInteger_spec ha hy hm hlt hdp

-- 12.5, with digits dropped behind it, is nearer to 13
example : Decimal.roundedInteger { d := [1, 2, 5], dp := 2, neg := false, trunc := true } = 13 :=
  BitVec.eq_of_toNat_eq (C41_roundedInteger { d := [1, 2, 5], dp := 2, neg := false, trunc := true } ⟨by decide, by decide, by decide, by decide⟩ (25 / 2 + 1 / 1000)
    (by norm_num [Represents, decValue]) (.inr (by decide)) 13 ⟨by norm_num [abs_of_nonpos, abs_of_neg], by norm_num [abs_of_nonpos, abs_of_neg]⟩ (by norm_num))

/-- C41: the bound is sharp: 2^64 − 1/2 rounds to 2^64, which is delivered as 0. -/
theorem C41_roundedInteger_wraps :
    NormalDec [1, 8, 4, 4, 6, 7, 4, 4, 0, 7, 3, 7, 0, 9, 5, 5, 1, 6, 1, 5, 5] 20 ∧
    decValue [1, 8, 4, 4, 6, 7, 4, 4, 0, 7, 3, 7, 0, 9, 5, 5, 1, 6, 1, 5, 5] 20 = 2 ^ 64 - 1 / 2 ∧
    NearestEven (2 ^ 64 - 1 / 2) (2 ^ 64) ∧
    Decimal.roundedInteger { d := [1, 8, 4, 4, 6, 7, 4, 4, 0, 7, 3, 7, 0, 9, 5, 5, 1, 6, 1, 5, 5], dp := 20, neg := false, trunc := false } = 0 := by
  refine ⟨⟨by decide, by decide, by decide, by decide⟩, ?_, ?_, by decide +kernel⟩
  · norm_num [decValue]
  · constructor
    · norm_num [abs_of_nonpos]
    · intro _; decide

/-- C41: `NearestEven` determines the integer. -/
theorem C41_nearest_unique (q : ℚ) (m n : ℤ) (hm : NearestEven q m) (hn : NearestEven q n) : m = n := nearest_unique hm hn

example : NormalDec [9, 9, 9, 5] 2 ∧ Represents [9, 9, 9, 5] 2 false (9995 / 100) ∧
    Decimal.round { d := [9, 9, 9, 5], dp := 2, neg := false, trunc := false } 3 = { d := [1], dp := 3, neg := false, trunc := false } := by
  refine ⟨⟨by decide, by decide, by decide, by decide⟩, ?_, by decide⟩
  norm_num [Represents, decValue]

example : Represents [1, 2, 5] 2 true (25 / 2 + 1 / 1000) ∧
    Decimal.roundedInteger { d := [1, 2, 5], dp := 2, neg := false, trunc := true } = 13 ∧
    Decimal.roundedInteger { d := [1, 2, 5], dp := 2, neg := false, trunc := false } = 12 := by
  refine ⟨?_, by decide, by decide⟩
  norm_num [Represents, decValue]

end GoFloat.Strconv
