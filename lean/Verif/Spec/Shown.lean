import Verif.Spec.Decimal
import Verif.Spec.Layout
import Verif.Spec.Shortest
/-
Specification: the text of a finite number in the decimal formats.
-/
namespace GoFloat.Spec

/-- The number `q` that the text of a finite float of magnitude `m` denotes: with a negative precision the decimal of the least number of
digits, in the format `f` the nearest multiple of 10^(-prec), in the other formats the number rounded to significant digits. -/
def Format.Shows (F : Format) (fmt : Char) (prec : ℤ) (s : Bool) (c : ℕ) (m q : ℚ) : Prop :=
  if prec < 0 then (m = 0 → q = 0) ∧ (m ≠ 0 → ∃ L e, F.Printed s c m q L e)
  else if fmt = 'f' then ∃ z : ℕ, NearestEven (m * (10 : ℚ) ^ prec.toNat) z ∧ q = z / (10 : ℚ) ^ prec.toNat
  else (m = 0 → q = 0) ∧ (m ≠ 0 → RoundedDigits (if fmt = 'g' ∨ fmt = 'G' then max prec.toNat 1 else prec.toNat + 1) m q)

/-- `-d.ddde±dd` for the number `q`: the first digit is zero only for zero, which has the exponent zero. -/
def ShapeE (letter : Char) (t : Text) (s : Bool) (q : ℚ) (frac : Text) : Prop :=
  ∃ d x, IsExponential letter t s d frac x ∧ (d = '0' ↔ q = 0) ∧ (q = 0 → x = 0)

/-- The layout of the text `t` of the number `q` with sign `s`. The number of digits after the point is the precision in the formats `e`, `E`
and `f`; with a negative precision and in the formats `g` and `G` there are no trailing zeros. -/
def Layout (fmt : Char) (prec : ℤ) (s : Bool) (q : ℚ) (t : Text) : Prop :=
  ∃ frac, (if fmt = 'f' then ∃ int, IsFixed t s int frac
    else if fmt = 'g' ∨ fmt = 'G' then
      if q ≠ 0 ∧ (q < 1 / 10000 ∨ (10 : ℚ) ^ (if prec < 0 then 6 else max prec.toNat 1) ≤ q) then
        ShapeE (if fmt = 'g' then 'e' else 'E') t s q frac
      else ∃ int, IsFixed t s int frac
    else ShapeE fmt t s q frac) ∧
    if prec < 0 ∨ fmt = 'g' ∨ fmt = 'G' then frac.getLast? ≠ some '0' else frac.length = prec.toNat

end GoFloat.Spec
