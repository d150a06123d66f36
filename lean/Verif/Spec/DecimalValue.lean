import Mathlib.Data.Rat.Defs
import Mathlib.Algebra.Field.Rat
import Mathlib.Algebra.Group.Basic
import Mathlib.Algebra.Group.Int.Even
import Mathlib.Algebra.Order.Group.Unbundled.Abs
import Mathlib.Algebra.Order.Ring.Unbundled.Rat
/-
Specification: a string of decimal digits with a decimal point.
-/
namespace GoFloat.Spec

/-- The number `0.d₁d₂…dₙ * 10^dp`. -/
def decValue (ds : List ℕ) (dp : ℤ) : ℚ := (ds.foldl (fun a d => a * 10 + d) 0 : ℕ) * (10 : ℚ) ^ (dp - ds.length)

/-- Decimal digits without leading or trailing zero; for zero there is no digit and the point is at 0. -/
structure NormalDec (ds : List ℕ) (dp : ℤ) : Prop where
  digit : ∀ d ∈ ds, d < 10
  head : ds.head? ≠ some 0
  last : ds.getLast? ≠ some 0
  zero : ds = [] → dp = 0

/-- `q` can be written with at most `n` significant decimal digits. -/
def FitsDigits (n : ℕ) (q : ℚ) : Prop := ∃ (m : ℕ) (e : ℤ), m < 10 ^ n ∧ q = m * (10 : ℚ) ^ e

/-- `m` is the integer nearest to `q`, the even one of two. -/
def NearestEven (q : ℚ) (m : ℤ) : Prop := |q - m| ≤ 1 / 2 ∧ (|q - m| = 1 / 2 → Even m)

/-- Of two multiples of `u`, `w` times `u` is preferred to `z` times `u` as an approximation of `v`: it is the same, or closer, or as close
and `w` is even. -/
def Prefer (u v : ℚ) (w z : ℤ) : Prop := z = w ∨ |w * u - v| < |z * u - v| ∨ |w * u - v| = |z * u - v| ∧ w % 2 = 0

/-- `y` is `v > 0` rounded to `n` significant decimal digits, half to even. -/
def RoundedDigits (n : ℕ) (v y : ℚ) : Prop :=
  ∃ (m : ℕ) (e : ℤ), (10 : ℚ) ^ (n - 1) ≤ v / (10 : ℚ) ^ e ∧ v / (10 : ℚ) ^ e < 10 ^ n ∧ NearestEven (v / (10 : ℚ) ^ e) m ∧
    y = m * (10 : ℚ) ^ e

/-- `y` is a number that the digits stand for: their value, or, if nonzero digits have been dropped after the last one
(`trunc`), something above it by less than a unit of the last digit. -/
def Represents (ds : List ℕ) (dp : ℤ) (trunc : Bool) (y : ℚ) : Prop :=
  if trunc then decValue ds dp < y ∧ y < decValue ds dp + (10 : ℚ) ^ (dp - ds.length) else y = decValue ds dp

end GoFloat.Spec
