import Verif.Spec.Format
/-
Specification: arithmetic with infinities and zeros, after IEEE 754-2019, 6.1 (infinity arithmetic), 6.3 (the sign bit), 7.2 (invalid operation)
and 7.3 (division by zero). `none` is an invalid operation, which IEEE 754 answers with a NaN. Nothing is said of NaNs as operands.
-/
namespace GoFloat.Spec

/-- The sum, if one of the summands is infinite. -/
def infiniteSum : Datum → Datum → Option Datum
  | .inf s, .inf s' => if s = s' then some (.inf s) else none
  | .inf s, .num _ _ => some (.inf s)
  | .num _ _, .inf s' => some (.inf s')
  | _, _ => none

/-- The other sign. -/
def opposite : Datum → Datum
  | .inf s => .inf (!s)
  | .num s m => .num (!s) m
  | .nan s => .nan (!s)

/-- The product, if one of the factors is zero or infinite. -/
def specialProduct : Datum → Datum → Option Datum
  | .inf s, .inf s' => some (.inf (s != s'))
  | .inf s, .num s' m => if m = 0 then none else some (.inf (s != s'))
  | .num s m, .inf s' => if m = 0 then none else some (.inf (s != s'))
  | .num s m, .num s' m' => if m = 0 ∨ m' = 0 then some (.num (s != s') 0) else none
  | _, _ => none

/-- The quotient, if one of the operands is zero or infinite. -/
def specialQuotient : Datum → Datum → Option Datum
  | .inf s, .num s' _ => some (.inf (s != s'))
  | .num s _, .inf s' => some (.num (s != s') 0)
  | .num s m, .num s' m' => if m = 0 then (if m' = 0 then none else some (.num (s != s') 0)) else if m' = 0 then some (.inf (s != s')) else none
  | _, _ => none

/-- Neither a NaN nor an infinity. -/
def IsNum : Datum → Prop
  | .num _ _ => True
  | _ => False

/-- A number that is not zero. -/
def IsNonzero : Datum → Prop
  | .num _ m => m ≠ 0
  | _ => False

/-- Not a NaN. -/
def NotNaN : Datum → Prop
  | .nan _ => False
  | _ => True

end GoFloat.Spec
