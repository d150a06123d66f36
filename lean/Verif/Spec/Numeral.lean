import Mathlib.Data.Nat.Notation
import Mathlib.Data.Int.Notation
import Verif.Model.Text
/-
Specification: numerals in base 2 to 36.
-/
namespace GoFloat.Spec

/-- The value of a character as a digit: `0`-`9` and `a`-`z`. -/
def charDigit (c : Char) : Option ℕ :=
  if '0' ≤ c ∧ c ≤ '9' then some (c.toNat - 48) else if 'a' ≤ c ∧ c ≤ 'z' then some (c.toNat - 87) else none

/-- The number denoted by a sequence of digits in base `b`, read from the left; `none` if a character is no digit. -/
def readNumeral (b : ℕ) (s : Text) : Option ℕ :=
  s.foldl (fun a c => a.bind fun a => (charDigit c).bind fun d => if d < b then some (a * b + d) else none) (some 0)

/-- `s` is the numeral of `n` in base `b`: at least one digit, and no leading zero except in "0". -/
def IsNumeral (b : ℕ) (s : Text) (n : ℕ) : Prop :=
  s ≠ [] ∧ readNumeral b s = some n ∧ (s.head? = some '0' → s = ['0'])

/-- `s` is the numeral of the integer `i` in base `b`, with a minus sign if it is negative. -/
def IsIntNumeral (b : ℕ) (s : Text) (i : ℤ) : Prop :=
  if i < 0 then ∃ t, s = '-' :: t ∧ IsNumeral b t i.natAbs else IsNumeral b s i.natAbs

end GoFloat.Spec
