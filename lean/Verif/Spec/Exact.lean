import Verif.Spec.DecimalValue
/-
Specification: the decimal that package float prints of a big.Float.
-/
namespace GoFloat.Spec

/-- `q` is `m ≥ 0` rounded to 101 significant decimal digits, half to even. -/
def Rounded101 (m q : ℚ) : Prop := if m = 0 then q = 0 else RoundedDigits 101 m q

end GoFloat.Spec
