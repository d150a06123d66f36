import Verif.Spec.Numeral
/-
Specification: the shapes of the texts of numbers.
-/
namespace GoFloat.Spec

/-- The digits of an exponent: the numeral of `n`, with a zero in front if it has one digit. -/
def IsExponent (ex : Text) (n : ℕ) : Prop :=
  readNumeral 10 ex = some n ∧ 2 ≤ ex.length ∧ (2 < ex.length → ex.head? ≠ some '0')

/-- The fraction with its point; nothing if there are no digits. -/
def pointed (frac : Text) : Text := if frac = [] then [] else '.' :: frac

/-- A minus sign or nothing. -/
def minus (neg : Bool) : Text := if neg then ['-'] else []

/-- `-d.ddddE±dd`, the exponent being `x`. -/
structure IsExponential (letter : Char) (s : Text) (neg : Bool) (d : Char) (frac : Text) (x : ℤ) : Prop where
  text : ∃ ex, IsExponent ex x.natAbs ∧ s = minus neg ++ d :: pointed frac ++ letter :: (if x < 0 then '-' else '+') :: ex
  digits : ∀ c ∈ d :: frac, '0' ≤ c ∧ c ≤ '9'

/-- `-ddd.dddd`, without leading zeros. -/
structure IsFixed (s : Text) (neg : Bool) (int frac : Text) : Prop where
  text : s = minus neg ++ int ++ pointed frac
  int : ∃ n, IsNumeral 10 int n
  digits : ∀ c ∈ frac, '0' ≤ c ∧ c ≤ '9'

/-- `-ddddp±ddd`: the binary format with mantissa `m` and exponent `x`. -/
def IsBinary (s : Text) (neg : Bool) (m : ℕ) (x : ℤ) : Prop :=
  ∃ t e, IsNumeral 10 t m ∧ IsNumeral 10 e x.natAbs ∧ s = minus neg ++ t ++ 'p' :: (if x < 0 then '-' else '+') :: e

end GoFloat.Spec
