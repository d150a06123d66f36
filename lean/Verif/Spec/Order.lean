import Verif.Spec.Format
/-
Specification: the order of the extended number line.
-/
namespace GoFloat.Spec

/-- `a ≤ b` on the extended number line: neither is a NaN, and `b` is not below `a`. The two zeros are equal. -/
def Datum.Le (a b : Datum) : Prop := ∃ p q, a.key = some p ∧ b.key = some q ∧ ¬ keyLt q p

end GoFloat.Spec
