import Mathlib.Algebra.Order.Ring.Int
/-
Specification: bit patterns read as a sign and a magnitude.
-/
namespace GoFloat.Spec

/-- A pattern of `n + 1` bits read as a sign and a magnitude of `n` bits: the integer that sorts it. -/
def place (n c : ℕ) : ℤ := if c / 2 ^ n % 2 = 1 then -((c % 2 ^ n : ℕ) : ℤ) else ((c % 2 ^ n : ℕ) : ℤ)

end GoFloat.Spec
