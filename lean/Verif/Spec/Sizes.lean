import Verif.Spec.Format
/-
Specification: the sizes and the format letters of FormatFloat.
-/
namespace GoFloat.Strconv
open Spec

/-- The bit sizes of the three formats. -/
def SizeOf (F : Format) (size : ℤ) : Prop := F = half ∧ size = 16 ∨ F = single ∧ size = 32 ∨ F = double ∧ size = 64

/-- The formats that print decimal digits. -/
def DecimalFormat (fmt : Char) : Prop := fmt ∈ ['e', 'E', 'f', 'g', 'G']

/-- The formats FormatFloat knows. -/
def KnownFormat (fmt : Char) : Prop := fmt = 'b' ∨ DecimalFormat fmt

end GoFloat.Strconv
