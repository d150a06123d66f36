import Mathlib.Data.Rat.Defs
import Mathlib.Algebra.Field.Rat
import Mathlib.Algebra.Group.Basic
import Verif.Spec.Numeral
/-
Specification: decimal numbers as text, `[sign] digits [. digits] [e [sign] digits]`.
-/
namespace GoFloat.Spec

/-- The sign in front of a text, and the rest. -/
def splitSign : Text → Bool × Text
  | '-' :: s => (true, s)
  | '+' :: s => (false, s)
  | s => (false, s)

/-- The exponent part of a number: nothing, or a letter, a sign and at least one digit. -/
def readExp : Text → Option ℤ
  | [] => some 0
  | _ :: s =>
    let (neg, ds) := splitSign s
    if ds = [] then none else (readNumeral 10 ds).map fun n => if neg then -(n : ℤ) else n

/-- The sign and the magnitude of a number. There is at least one digit before the point, and at least one
after it if there is a point. -/
def readDecimal (s : Text) : Option (Bool × ℚ) :=
  let (neg, s) := splitSign s
  let m := s.takeWhile fun c => c ≠ 'e' ∧ c ≠ 'E'
  let e := s.dropWhile fun c => c ≠ 'e' ∧ c ≠ 'E'
  let int := m.takeWhile (· ≠ '.')
  let point := m.dropWhile (· ≠ '.')
  let frac := point.drop 1
  if int = [] ∨ (point ≠ [] ∧ frac = []) then none
  else
    (readNumeral 10 (int ++ frac)).bind fun n =>
      (readExp e).map fun x : ℤ => (neg, (n : ℚ) * (10 : ℚ) ^ (x - frac.length))

/-- Scientific notation: an optional minus sign, one digit, optionally a point and at least one digit, the
letter `e`, a sign and at least two digits. -/
def IsScientific (s : Text) (neg : Bool) (d : Char) (frac : Text) (expNeg : Bool) (ex : Text) : Prop :=
  s = (if neg then ['-'] else []) ++ d :: (if frac = [] then [] else '.' :: frac) ++
    'e' :: (if expNeg then '-' else '+') :: ex ∧
  (∀ c ∈ d :: frac ++ ex, '0' ≤ c ∧ c ≤ '9') ∧ 2 ≤ ex.length

end GoFloat.Spec
