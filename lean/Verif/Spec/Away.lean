import Verif.Spec.Format
/-
Specification: rounding to the nearest number, ties away from zero.
-/
namespace GoFloat.Spec

/-- `c` is the encoding of the number `m ≥ 0` with sign `neg` rounded to nearest, ties away from zero (IEEE 754-2008, 4.3.1,
roundTiesToAway): the infinity from the overflow threshold on, and otherwise a finite number with that sign at least as close as every
finite number of the format, and of the greater magnitude in case of a tie. -/
def Format.RoundsAway (F : Format) (neg : Bool) (m : ℚ) (c : ℕ) : Prop :=
  if F.overflowAt ≤ m then F.decode c = .inf neg
  else ∃ r, F.decode c = .num neg r ∧
    (∀ c' s r', F.decode c' = .num s r' → |signed neg m - signed neg r| ≤ |signed neg m - signed s r'|) ∧
    (∀ c' s r', F.decode c' = .num s r' → signed s r' ≠ signed neg r →
      |signed neg m - signed neg r| = |signed neg m - signed s r'| → r' < r)

end GoFloat.Spec
