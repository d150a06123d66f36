import Mathlib.Data.Rat.Floor
import Mathlib.Algebra.Order.Field.Basic
import Verif.Model.BigFloat
/-
Specification: what bit patterns and `big.Float` variables denote, and what correct rounding means.
Nothing here refers to how the code computes; the formulas are those of IEEE 754.
-/
namespace GoFloat.Spec

/-- The thing denoted by an encoding: a NaN, an infinity, or a number, always with a sign.
`num neg m` is the number `m ≥ 0` with sign `neg` (so both zeros are distinguished). -/
inductive Datum
  | nan (neg : Bool)
  | inf (neg : Bool)
  | num (neg : Bool) (m : ℚ)

/-- The signed value. -/
def signed (neg : Bool) (m : ℚ) : ℚ := if neg then -m else m

/-- The sign of a datum. -/
def Datum.sign : Datum → Bool
  | .nan s => s
  | .inf s => s
  | .num s _ => s

/-- An IEEE 754 binary interchange format: `t` fraction bits and `w` exponent bits. -/
structure Format where
  t : ℕ
  w : ℕ

/-- IEEE 754 binary16 -/
def half : Format := ⟨10, 5⟩
/-- IEEE 754 binary32 -/
def single : Format := ⟨23, 8⟩
/-- IEEE 754 binary64 -/
def double : Format := ⟨52, 11⟩
/-- IEEE 754 binary128 -/
def quad : Format := ⟨112, 15⟩
/-- bfloat16 -/
def brain : Format := ⟨7, 8⟩

namespace Format

/-- Exponent bias, which is also the largest exponent. -/
def bias (F : Format) : ℤ := 2 ^ (F.w - 1) - 1

/-- The datum denoted by the bit pattern `c` (IEEE 754-2008, 3.4). -/
def decode (F : Format) (c : ℕ) : Datum :=
  let s : Bool := c / 2 ^ (F.t + F.w) % 2 = 1
  let E : ℕ := c / 2 ^ F.t % 2 ^ F.w
  let T : ℕ := c % 2 ^ F.t
  if E = 2 ^ F.w - 1 then (if T = 0 then .inf s else .nan s)
  else if E = 0 then .num s ((2 : ℚ) ^ (1 - F.bias) * (T / 2 ^ F.t))
  else .num s ((2 : ℚ) ^ ((E : ℤ) - F.bias) * (1 + T / 2 ^ F.t))

/-- The overflow threshold of round-to-nearest: the largest finite number plus half a unit in its last
place, `2^emax * (2 - 2^-(t+1))` (IEEE 754-2008, 4.3.1). -/
def overflowAt (F : Format) : ℚ := (2 : ℚ) ^ F.bias * (2 - 1 / 2 ^ (F.t + 1))

/-- `c` is the correctly rounded (to nearest, ties to even) encoding of the number `m ≥ 0` with sign
`neg`: the infinity beyond the overflow threshold, and otherwise a finite number with that sign at least
as close as every finite number of the format, with an even encoding in case of a tie. -/
def RoundsTo (F : Format) (neg : Bool) (m : ℚ) (c : ℕ) : Prop :=
  if F.overflowAt ≤ m then F.decode c = .inf neg
  else ∃ r, F.decode c = .num neg r ∧
    (∀ c' s r', F.decode c' = .num s r' → |signed neg m - signed neg r| ≤ |signed neg m - signed s r'|) ∧
    (∀ c' s r', F.decode c' = .num s r' → signed s r' ≠ signed neg r →
      |signed neg m - signed neg r| = |signed neg m - signed s r'| → c % 2 = 0)

/-- The signed number `signed neg m` is a finite value of the format. -/
def Representable (F : Format) (neg : Bool) (m : ℚ) : Prop := ∃ c, F.decode c = .num neg m

end Format

/-- Position of a datum on the extended number line (a NaN is not on it). -/
def Datum.key : Datum → Option (ℤ × ℚ)
  | .nan _ => none
  | .inf s => some (if s then -1 else 1, 0)
  | .num s m => some (0, signed s m)

/-- The order of the extended number line. -/
def keyLt (a b : ℤ × ℚ) : Prop := a.1 < b.1 ∨ a.1 = b.1 ∧ a.2 < b.2

/-- `acc` is the true accuracy of the result `r` for the exact datum `x` (documentation of
`big.Accuracy`: below, exact, above). -/
def AccuracyTrue (acc : Accuracy) (r x : Datum) : Prop :=
  ∃ a b, r.key = some a ∧ x.key = some b ∧
    match acc with
    | .exact => a = b
    | .below => keyLt a b
    | .above => keyLt b a

/-- Exponent of the smallest subnormal. -/
def Format.qmin (F : Format) : ℤ := 1 - F.bias - F.t

end GoFloat.Spec

namespace GoFloat.BigFloat
open GoFloat.Spec

/-- The magnitude of a finite `big.Float`: `0.mant * 2^exp` (documentation of `big.Float`: the mantissa
is read as a fraction `0.5 ≤ 0.mant < 1`). -/
def mag (x : BigFloat) : ℚ := (x.mant : ℚ) / 2 ^ bitLen x.mant * (2 : ℚ) ^ x.exp

/-- What a `big.Float` variable denotes. -/
def datum (x : BigFloat) : Datum :=
  match x.form with
  | .zero => .num x.neg 0
  | .inf => .inf x.neg
  | .finite => .num x.neg x.mag

/-- The invariant of `big.Float` variables (`Float.validate` in `math/big`, and the documented ranges):
a finite number has a non-zero mantissa that fits its precision, and exponents and precision in range. -/
structure WF (x : BigFloat) : Prop where
  prec_le : x.prec ≤ MaxPrec
  mant_pos : x.form = .finite → 0 < x.mant
  exp_ge : x.form = .finite → MinExp ≤ x.exp
  exp_le : x.form = .finite → x.exp ≤ MaxExp
  prec_pos : x.form = .finite → 1 ≤ x.prec
  fits : x.form = .finite → ∃ k j, x.mant = k * 2 ^ j ∧ k < 2 ^ x.prec

end GoFloat.BigFloat

namespace GoFloat.Spec

/-- The result `(x, nan)` of a `Big` method is the decoded datum: `nan` flags a NaN, whose sign `x`
(a zero) still carries, and otherwise `x` denotes the datum. -/
def Decoded (d : Datum) (x : BigFloat) (nan : Bool) : Prop :=
  match d with
  | .nan s => nan = true ∧ x.datum = .num s 0
  | .inf s => nan = false ∧ x.datum = .inf s
  | .num s m => nan = false ∧ x.datum = .num s m

end GoFloat.Spec
