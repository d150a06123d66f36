import Verif.Model.Float80x86
import Verif.Spec.Extended
/-
Specification: the encodings of package float80x86.
-/
namespace GoFloat.Float80x86
open Spec

/-- What a value denotes. -/
abbrev Float.val (f : Float) : Datum := decode80 f.se.toNat f.m.toNat
/-- Canonical encodings. -/
abbrev Float.Canonical (f : Float) : Prop := Canonical80 f.se.toNat f.m.toNat

/-- The encoding without its integer bit, as an encoding of the format `extended`. -/
def Float.code (f : Float) : ℕ := f.se.toNat / 2 ^ 15 * 2 ^ 78 + f.se.toNat % 2 ^ 15 * 2 ^ 63 + f.m.toNat % 2 ^ 63

end GoFloat.Float80x86
