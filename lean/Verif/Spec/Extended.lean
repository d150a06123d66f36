import Verif.Spec.Format
/-
Specification: the x86 80-bit extended format.
-/
namespace GoFloat.Spec

/-- Double-extended precision with the integer bit left out: an IEEE format with 63 fraction and 15 exponent bits. -/
def extended : Format := ⟨63, 15⟩

/-- What the 16 bits `se` (sign and exponent) and the 64 bits `m` (significand with explicit integer bit) denote.
With an exponent of all ones, an infinity if only the integer bit is set and a NaN otherwise. With any other exponent the
number `m * 2^(max E 1 - 16383 - 63)`, whatever the integer bit is. -/
def decode80 (se m : ℕ) : Datum :=
  let s : Bool := se / 2 ^ 15 % 2 = 1
  let E : ℕ := se % 2 ^ 15
  if E = 2 ^ 15 - 1 then (if m = 2 ^ 63 then .inf s else .nan s)
  else .num s (m * (2 : ℚ) ^ ((max E 1 : ℕ) - 16383 - 63 : ℤ))

/-- The encodings the processor produces: the integer bit is set exactly when the exponent is not zero. -/
def Canonical80 (se m : ℕ) : Prop := 2 ^ 63 ≤ m ↔ se % 2 ^ 15 ≠ 0

end GoFloat.Spec
