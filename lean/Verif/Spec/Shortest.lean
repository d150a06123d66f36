import Verif.Spec.Format
import Verif.Spec.DecimalValue
/-
Specification: the mantissa and exponent of a float, and its shortest decimal representations.
-/
namespace GoFloat.Spec

/-- `mant * 2^(exp - t)` is the finite number `v` of the format, with the mantissa and the exponent of its encoding: a
normal number has the implicit bit `2^t` in its mantissa, a subnormal number and zero have the smallest exponent. -/
structure Format.Parts (F : Format) (mant : ℕ) (exp : ℤ) (v : ℚ) : Prop where
  value : v = mant * (2 : ℚ) ^ (exp - F.t)
  lt : mant < 2 ^ (F.t + 1)
  ge : 1 - F.bias ≤ exp
  norm : 2 ^ F.t ≤ mant ∨ exp = 1 - F.bias
  le : exp ≤ F.bias

/-- The number `q` is nearer to the number `v` of the format than to every other one, and is not rounded to infinity. -/
def Format.StrictlyNearest (F : Format) (v q : ℚ) : Prop :=
  q < F.overflowAt ∧ ∀ c s r, F.decode c = .num s r → signed s r ≠ v → |q - v| < |q - signed s r|

/-- The digits `ds` at the point `dp` are a shortest decimal of the float with the encoding `c`, sign `neg` and magnitude `v`:
they are read back as the float, nothing with fewer significant digits is, and nothing with as many that is read back is
closer. -/
structure Format.ShortestDecimal (F : Format) (neg : Bool) (c : ℕ) (v : ℚ) (ds : List ℕ) (dp : ℤ) : Prop where
  normal : NormalDec ds dp
  reads : F.RoundsTo neg (decValue ds dp) c
  minimal : ∀ n y, FitsDigits n y → F.RoundsTo neg y c → ds.length ≤ n
  closest : ∀ y, FitsDigits ds.length y → F.RoundsTo neg y c → |decValue ds dp - v| ≤ |y - v|

/-- The nonnegative numbers of the format, with one more at the top: the power of two after the largest. -/
def Format.OnGrid (F : Format) (r : ℚ) : Prop := (∃ c, F.decode c = .num false r) ∨ r = (2 : ℚ) ^ (F.bias + 1)

/-- `a` and `b` are consecutive. -/
structure Format.Adjacent (F : Format) (a b : ℚ) : Prop where
  left : F.OnGrid a
  right : F.OnGrid b
  lt : a < b
  none : ∀ r, F.OnGrid r → r ≤ a ∨ b ≤ r

/-- The exceptional floats of C51: the encoding is odd, and the midpoint to the next float can be written with fewer than `L` digits. -/
def Format.Exceptional (F : Format) (c : ℕ) (m : ℚ) (L : ℕ) : Prop := c % 2 = 1 ∧ ∃ r, F.Adjacent m r ∧ FitsDigits (L - 1) ((m + r) / 2)

/-- Which decimal is printed for the float `m ≠ 0` with the encoding `c`. `L` is the least number of digits of a decimal that is read
back as the float, and `10^e` the place of the last of the first `L` digits of `m`. An exceptional float is cut at this place. For
every other one the multiple of `10^e` is printed that is preferred to all others that are read back as the float. -/
structure Format.Printed (F : Format) (neg : Bool) (c : ℕ) (m q : ℚ) (L : ℕ) (e : ℤ) : Prop where
  pos : 1 ≤ L
  lower : (10 : ℚ) ^ (e + L - 1) ≤ m
  upper : m < (10 : ℚ) ^ (e + L)
  least : ∀ n y, FitsDigits n y → F.RoundsTo neg y c → L ≤ n
  fits : FitsDigits L q
  reads : F.RoundsTo neg q c
  cut : F.Exceptional c m L → ∃ w : ℕ, q = w * (10 : ℚ) ^ e ∧ q ≤ m ∧ m < q + (10 : ℚ) ^ e
  pick : ¬ F.Exceptional c m L → ∃ w : ℕ, q = w * (10 : ℚ) ^ e ∧ ∀ z : ℕ, F.RoundsTo neg (z * (10 : ℚ) ^ e) c → Prefer ((10 : ℚ) ^ e) m w z

end GoFloat.Spec
