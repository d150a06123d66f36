import Verif.Spec.Format
import Verif.Spec.Decimal
import Verif.Spec.Layout
/-
Specification: how Go reads the rows of the generated tables.
-/
namespace GoFloat.Spec

/-- The value of a character as a hexadecimal digit. -/
def hexDigit (c : Char) : Option ℕ :=
  if '0' ≤ c ∧ c ≤ '9' then some (c.toNat - 48) else if 'A' ≤ c ∧ c ≤ 'F' then some (c.toNat - 55)
  else if 'a' ≤ c ∧ c ≤ 'f' then some (c.toNat - 87) else none

/-- The number denoted by hexadecimal digits, of which there is at least one. -/
def readHex (s : Text) : Option ℕ :=
  if s = [] then none else s.foldl (fun a c => a.bind fun a => (hexDigit c).map fun d => a * 16 + d) (some 0)

/-- `t` is a constant expression of Go, with an optional minus sign, for the number `±q`. (A numeral that begins with a zero and has
neither point nor exponent would be octal; `IsFixed` excludes it.) -/
def FloatConstant (t : Text) (s : Bool) (q : ℚ) : Prop :=
  readDecimal t = some (s, q) ∧ ((∃ d frac x, IsExponential 'e' t s d frac x) ∨ ∃ int frac, IsFixed t s int frac)

/-- The expression `t` has the float64 value with the bits `w` in Go: a constant, which is rounded to the nearest float64, must not
overflow, and never yields the negative zero; or one of three calls. -/
def FloatExpr (t : Text) (w : BitVec 64) : Prop :=
  (∃ s q c, FloatConstant t s q ∧ q < double.overflowAt ∧ double.RoundsTo s q c ∧
    (double.decode c = .num true 0 → w = 0) ∧ (double.decode c ≠ .num true 0 → w.toNat = c)) ∨
  (t = "math.Copysign(0, -1)".toList ∧ double.decode w.toNat = .num true 0) ∨
  (t = "math.Inf(+1)".toList ∧ double.decode w.toNat = .inf false) ∨
  (t = "math.Inf(-1)".toList ∧ double.decode w.toNat = .inf true)

/-- The line `t` is a row `{bits: …, want: …}, // …` with these values. -/
def ReadsRow16 (t : Text) (bits : BitVec 16) (w : BitVec 64) : Prop :=
  ∃ h l c, t = "{bits: 0x".toList ++ h ++ ", want: ".toList ++ l ++ "}, // ".toList ++ c ∧ readHex h = some bits.toNat ∧
    FloatExpr l w ∧ '\n' ∉ t

/-- The line `t` is a row `{a: …, b: …, want: "…", want64: …, acc64: big.…}, // …` with these values. -/
def ReadsRow128 (t : Text) (a b : BitVec 64) (want : Text) (w : BitVec 64) (acc : Accuracy) : Prop :=
  ∃ ha hb l n c, t = "{a: 0x".toList ++ ha ++ ", b: 0x".toList ++ hb ++ ", want: \"".toList ++ want ++ "\", want64: ".toList ++ l ++
      ", acc64: big.".toList ++ n ++ "}, // ".toList ++ c ∧ readHex ha = some a.toNat ∧ readHex hb = some b.toNat ∧
    '"' ∉ want ∧ '\\' ∉ want ∧ FloatExpr l w ∧
    n = (match acc with | .below => "Below" | .exact => "Exact" | .above => "Above").toList ∧ '\n' ∉ t

end GoFloat.Spec
