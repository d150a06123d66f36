import Verif.Spec.Format
/-
Specification: rounding a number to a number of significant bits.
-/
namespace GoFloat.Spec

/-- `r` is `v` rounded to `p` significant bits, to nearest, ties to even, without limits on the exponent: `r` has `p`
bits, no number with `p` bits is nearer, and if another one is as near then `r` is an even multiple of the unit in the
last place of `v`. -/
def RoundsToBits (p : ℕ) (v r : ℚ) : Prop :=
  (∃ k e : ℤ, |k| < 2 ^ p ∧ r = k * (2 : ℚ) ^ e) ∧
  (∀ k e : ℤ, |k| < 2 ^ p → |v - r| ≤ |v - k * (2 : ℚ) ^ e|) ∧
  (∀ k e : ℤ, |k| < 2 ^ p → k * (2 : ℚ) ^ e ≠ r → |v - r| = |v - k * (2 : ℚ) ^ e| →
    ∀ q : ℤ, (2 : ℚ) ^ (p - 1) * 2 ^ q ≤ |v| → |v| < (2 : ℚ) ^ p * 2 ^ q → ∃ j : ℤ, r = 2 * j * (2 : ℚ) ^ q)

/-- `r` is `v` rounded to `p` significant bits in the given mode, without limits on the exponent. -/
def RoundsToBitsIn (mode : RoundingMode) (p : ℕ) (v r : ℚ) : Prop :=
  (∃ k e : ℤ, |k| < 2 ^ p ∧ r = k * (2 : ℚ) ^ e) ∧
  match mode with
  | .toNearestEven => RoundsToBits p v r
  | .toNearestAway => ∀ k e : ℤ, |k| < 2 ^ p → |v - r| ≤ |v - k * (2 : ℚ) ^ e| ∧ (|v - r| = |v - k * (2 : ℚ) ^ e| → |k * (2 : ℚ) ^ e| ≤ |r|)
  | .toZero => 0 ≤ r * v ∧ |r| ≤ |v| ∧ ∀ k e : ℤ, |k| < 2 ^ p → |k * (2 : ℚ) ^ e| ≤ |v| → |k * (2 : ℚ) ^ e| ≤ |r|
  | .awayFromZero => 0 ≤ r * v ∧ |v| ≤ |r| ∧ ∀ k e : ℤ, |k| < 2 ^ p → |v| ≤ |k * (2 : ℚ) ^ e| → |r| ≤ |k * (2 : ℚ) ^ e|
  | .toNegativeInf => r ≤ v ∧ ∀ k e : ℤ, |k| < 2 ^ p → k * (2 : ℚ) ^ e ≤ v → k * (2 : ℚ) ^ e ≤ r
  | .toPositiveInf => v ≤ r ∧ ∀ k e : ℤ, |k| < 2 ^ p → v ≤ k * (2 : ℚ) ^ e → r ≤ k * (2 : ℚ) ^ e

/-- `acc` is the true accuracy of the number `r` as a result for the exact number `v`. -/
def AccuracyOf (acc : Accuracy) (r v : ℚ) : Prop :=
  match acc with
  | .exact => r = v
  | .below => r < v
  | .above => v < r

end GoFloat.Spec

namespace GoFloat.BigFloat
open Spec

/-- The signed value of a finite or zero `big.Float`. -/
def sval (x : BigFloat) : ℚ := if x.form = .finite then signed x.neg x.mag else 0

end GoFloat.BigFloat
