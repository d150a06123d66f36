import Verif.Spec.Negate
import Verif.Spec.Order
/-
Specification: the exact sum of two data.
-/
namespace GoFloat.Spec

/-- The exact sum of two data on the extended number line; none if one is a NaN or they are infinities of opposite sign. The sign of
a zero sum is that of the first. -/
def Datum.sum : Datum → Datum → Option Datum
  | .num s m, .num s' m' =>
    let v := signed s m + signed s' m'
    some (.num (if v = 0 then s else decide (v < 0)) |v|)
  | .inf s, .num _ _ => some (.inf s)
  | .num _ _, .inf s => some (.inf s)
  | .inf s, .inf s' => if s = s' then some (.inf s) else none
  | _, _ => none

end GoFloat.Spec
