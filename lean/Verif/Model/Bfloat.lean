import Verif.Model.Math
import Verif.Model.Text
/-
Model of /repo/bfloat/bfloat.go, function by function.
-/
namespace GoFloat.Bfloat

/-- bfloat.go:11 -/
def precision : Nat := 8
/-- bfloat.go:13 -/
def bias : Int := 127

/-- bfloat.go:17-24: `type Float struct { bits uint16 }` -/
structure Float where
  bits : BitVec 16
  deriving DecidableEq, Repr

/-- bfloat.go:26-28 -/
def newFromBits (bits : BitVec 16) : Float := ⟨bits⟩

/-- bfloat.go:88-91 -/
def Float.signbit (f : Float) : Bool := f.bits &&& 0x8000 != 0

/-- bfloat.go:94-97 -/
def Float.exp (f : Float) : Int := ((f.bits &&& 0x7F80) >>> 7).toNat

/-- bfloat.go:100-103 -/
def Float.frac (f : Float) : BitVec 16 := f.bits &&& 0x7F

/-- bfloat.go:80: `fmt.Sprintf("%s0b%d.%07bp%d", sign, lead, frac, exponent)` -/
def bigText (sign : Bool) (lead : Nat) (frac : BitVec 16) (exponent : Int) : Text :=
  (if sign then ['-'] else ['+']) ++ ['0', 'b'] ++ fmtNat 10 lead ++ ['.'] ++ fmtBinPad 7 frac.toNat
    ++ ['p'] ++ fmtInt exponent

/-- bfloat.go:30-85: `func (f Float) Big() (x *big.Float, nan bool)` -/
def Float.big (f : Float) : Go (BigFloat × Bool) := do
  let signbit := f.signbit
  let exp := f.exp
  let frac := f.frac
  let x ← newFloat 0
  let x := x.setPrec precision
  let x := x.setMode .toNearestEven
  if exp = 0xFF ∧ frac = 0 then return (x.setInf signbit, false)
  if exp = 0xFF then return (if signbit then x.negSelf else x, true)
  if exp = 0 ∧ frac = 0 then return (if signbit then x.negSelf else x, false)
  let lead := if exp = 0 then 0 else 1
  let exponent := if exp = 0 then -126 else exp - bias
  match x.parse (bigText signbit lead frac exponent) with
  | some x => return (x, false)
  | none => throw .parse

end GoFloat.Bfloat
