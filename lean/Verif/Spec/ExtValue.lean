import Verif.Model.ExtFloat
import Verif.Spec.Format
/-
Specification: what an extended float denotes.
-/
namespace GoFloat.Strconv
open Spec

/-- The magnitude of an extended float. -/
def ExtFloat.val (f : ExtFloat) : ℚ := (f.mant.toNat : ℚ) * (2 : ℚ) ^ f.exp

/-- The formats of the package and their descriptions (ftoa.go:28-30). -/
def InfoFor (F : Format) (flt : FloatInfo) : Prop :=
  F = half ∧ flt = float16info ∨ F = single ∧ flt = float32info ∨ F = double ∧ flt = float64info

/-- The decimal `x`, scaled to have its leading digits before the point, was cut to the integer `m`; `trunc` says whether digits
were dropped. -/
def Leading (m : BitVec 64) (trunc : Bool) (x : ℚ) : Prop :=
  if trunc then (m.toNat : ℚ) ≤ x ∧ x < m.toNat + 1 else x = m.toNat

end GoFloat.Strconv
