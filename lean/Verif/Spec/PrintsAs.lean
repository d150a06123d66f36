import Verif.Model.Ftoa
import Verif.Spec.Exact
import Verif.Spec.Decimal
/-
Specification: the number that FormatFloat prints.
-/
namespace GoFloat
open Spec Strconv

/-- FormatFloat with precision -1 and the given size prints `val` as `m`, rounded to 101 digits, with sign `s`. -/
def PrintsAs (W : ℕ) (size : ℤ) (val : F64) (s : Bool) (m : ℚ) : Prop :=
  ∃ t q, formatFloat W val 'e' (-1) size = .ok t ∧ readDecimal t = some (s, q) ∧ Rounded101 m q

end GoFloat
