import Verif.Model.Math
import Verif.Model.Text
/-
Model of /repo/binary16/binary16.go, function by function.
-/
namespace GoFloat.Binary16

/-- binary16.go:18 -/
def precision : Nat := 11
/-- binary16.go:20 -/
def bias : Int := 15

/-- binary16.go:40-47: `type Float struct { bits uint16 }` -/
structure Float where
  bits : BitVec 16
  deriving DecidableEq, Repr

/-- binary16.go:26 -/
def NaN : Float := ⟨0x7E00⟩
/-- binary16.go:28 -/
def NegNaN : Float := ⟨0xFE00⟩
/-- binary16.go:30 -/
def Inf : Float := ⟨0x7C00⟩
/-- binary16.go:32 -/
def NegInf : Float := ⟨0xFC00⟩
/-- binary16.go:34 -/
def Zero : Float := ⟨0x0000⟩
/-- binary16.go:36 -/
def NegZero : Float := ⟨0x8000⟩

/-- binary16.go:51-53 -/
def newFromBits (bits : BitVec 16) : Float := ⟨bits⟩

/-- binary16.go:165-167 -/
def Float.bitsOf (f : Float) : BitVec 16 := f.bits

/-- binary16.go:263-266 -/
def Float.signbit (f : Float) : Bool := f.bits &&& 0x8000 != 0

/-- binary16.go:269-272. Go's `&` and `>>` have equal precedence: `(f.bits & 0x7C00) >> 10`. -/
def Float.exp (f : Float) : Int := ((f.bits &&& 0x7C00) >>> 10).toNat

/-- binary16.go:275-278 -/
def Float.frac (f : Float) : BitVec 16 := f.bits &&& 0x03FF

/-- binary16.go:255: `fmt.Sprintf("%s0b%d.%010bp%d", sign, lead, frac, exponent)` -/
def bigText (sign : Bool) (lead : Nat) (frac : BitVec 16) (exponent : Int) : Text :=
  (if sign then ['-'] else ['+']) ++ ['0', 'b'] ++ fmtNat 10 lead ++ ['.'] ++ fmtBinPad 10 frac.toNat
    ++ ['p'] ++ fmtInt exponent

/-- binary16.go:203-260: `func (f Float) Big() (x *big.Float, nan bool)` -/
def Float.big (f : Float) : Go (BigFloat × Bool) := do
  let signbit := f.signbit
  let exp := f.exp
  let frac := f.frac
  let x ← newFloat 0
  let x := x.setPrec precision
  let x := x.setMode .toNearestEven
  if exp = 0x1F ∧ frac = 0 then return (x.setInf signbit, false)
  if exp = 0x1F then return (if signbit then x.negSelf else x, true)
  if exp = 0 ∧ frac = 0 then return (if signbit then x.negSelf else x, false)
  let lead := if exp = 0 then 0 else 1
  let exponent := if exp = 0 then -14 else exp - bias
  match x.parse (bigText signbit lead frac exponent) with
  | some x => return (x, false)
  | none => throw .parse

/-- binary16.go:174-183: `func (f Float) Float32() (float32, big.Accuracy)` -/
def Float.float32 (f : Float) : Go (F32 × Accuracy) := do
  let (x, nan) ← f.big
  if nan then
    if x.signbit then return (f64to32 F64.nan.neg, .exact)
    return (f64to32 F64.nan, .exact)
  return x.float32

/-- binary16.go:190-199: `func (f Float) Float64() (float64, big.Accuracy)` -/
def Float.float64 (f : Float) : Go (F64 × Accuracy) := do
  let (x, nan) ← f.big
  if nan then
    if x.signbit then return (F64.nan.neg, .exact)
    return (F64.nan, .exact)
  return x.float64

/-- binary16.go:87-162: `func NewFromBig(x *big.Float) (Float, big.Accuracy)` -/
def newFromBig (x : BigFloat) : Go (Float × Accuracy) := do
  let zero ← newFloat 0
  if x.isInf then
    return (if x.signbit then NegInf else Inf, .exact)
  if x.cmp zero = .eq then
    return (if x.signbit then NegZero else Zero, .exact)
  let bits : BitVec 16 := if x.signbit then 0x8000 else 0
  let (exponent, mant) := x.mantExp
  let exp : Int := exponent - 1 + bias
  if exp ≤ 0 then
    -- denormalized values
    let (exp, acc) :=
      if exp ≤ -((precision : Int) - 1) then ((precision : Int) - 1, Accuracy.below) else (exp, Accuracy.exact)
    let mant := mant.setMantExpSelf (exp + precision - 1)
    let mant := if mant.signbit then mant.negSelf else mant
    let mantissa := mant.uint64.1
    let bits := bits ||| (mantissa &&& 0x7FF).setWidth 16
    return (⟨bits⟩, acc)
  let acc : Accuracy := if BitVec.ofInt 64 exp &&& ~~~0x1F != 0 then .above else .exact
  let bits := bits ||| (BitVec.ofInt 64 exp &&& 0x1F).setWidth 16 <<< 10
  let mant := if mant.signbit then mant.negSelf else mant
  let mant := mant.setMantExpSelf precision
  let acc := if !mant.isInt then .below else acc
  let mantissa := mant.uint64.1
  let mantissa := mantissa &&& ~~~0x400
  let acc := if acc = .exact ∧ mantissa &&& ~~~0x7FF ≠ 0 then .below else acc
  let mantissa := mantissa &&& 0x7FF
  let bits := bits ||| mantissa.setWidth 16
  return (⟨bits⟩, acc)

/-- binary16.go:67-83: `func NewFromFloat64(x float64) (Float, big.Accuracy)` -/
def newFromFloat64 (x : F64) : Go (Float × Accuracy) := do
  if F64.isNaN x then
    return (if F64.signbit x then NegNaN else NaN, .exact)
  let y ← newFloat x
  let y := y.setPrec precision
  let y := y.setMode .toNearestEven
  newFromBig y

/-- binary16.go:57-63: `func NewFromFloat32(x float32) (Float, big.Accuracy)` -/
def newFromFloat32 (x : F32) : Go (Float × Accuracy) := do
  let (f, acc) ← newFromFloat64 (f32to64 x)
  if acc = .exact then
    let (_, acc) ← f.float32
    return (f, acc)
  return (f, acc)

end GoFloat.Binary16
