import Verif.Spec.Bits
/-
Specification: what `math/big` documents a rounded result to be.
-/
namespace GoFloat.Spec

/-- `r` is the result of an operation of `math/big` whose exact result is the number `v` of sign `s`, in a variable with
`p` bits and the given rounding mode. It is `v` rounded to `p` bits in that mode, with the true accuracy; but a magnitude
below `2^(MinExp-1)`, the least of a normalised mantissa, gives a zero, and an infinity is given only if `v`, or the number
it is rounded to without limits on the exponent, reaches `2^MaxExp` in magnitude. -/
def BigResult (mode : RoundingMode) (p : ℕ) (s : Bool) (v : ℚ) (r : BigFloat) : Prop :=
  r.prec = p ∧ r.mode = mode ∧ r.neg = s ∧ r.WF ∧
  ((r.form = .finite ∧ RoundsToBitsIn mode p v r.sval ∧ AccuracyOf r.acc r.sval v) ∨
   (r.form = .zero ∧ r.acc = makeAcc s ∧ |v| < (2 : ℚ) ^ (BigFloat.MinExp - 1)) ∨
   (r.form = .inf ∧ r.acc = makeAcc (!s) ∧
     ((2 : ℚ) ^ BigFloat.MaxExp ≤ |v| ∨ RoundsToBitsIn mode p v (signed s ((2 : ℚ) ^ BigFloat.MaxExp)))))

end GoFloat.Spec
