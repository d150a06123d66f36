import Verif.Model.Math
import Verif.Model.Text
/-
Model of /repo/float80x86/float80x86.go, function by function.
-/
namespace GoFloat.Float80x86

/-- float80x86.go:18 -/
def precision : Nat := 64
/-- float80x86.go:20 -/
def bias : Int := 16383

/-- float80x86.go:40-51: `type Float struct { se uint16; m uint64 }` -/
structure Float where
  se : BitVec 16
  m : BitVec 64
  deriving DecidableEq, Repr

/-- float80x86.go:26 -/
def NaN : Float := ⟨0x7FFF, 0xBFFFFFFFFFFFFFFF⟩
/-- float80x86.go:28 -/
def NegNaN : Float := ⟨0xFFFF, 0xBFFFFFFFFFFFFFFF⟩
/-- float80x86.go:30 -/
def Inf : Float := ⟨0x7FFF, 0x8000000000000000⟩
/-- float80x86.go:32 -/
def NegInf : Float := ⟨0xFFFF, 0x8000000000000000⟩
/-- float80x86.go:34 -/
def Zero : Float := ⟨0x0000, 0x0000000000000000⟩
/-- float80x86.go:36 -/
def NegZero : Float := ⟨0x8000, 0x0000000000000000⟩

/-- float80x86.go:55-57 -/
def newFromBits (se : BitVec 16) (m : BitVec 64) : Float := ⟨se, m⟩

/-- float80x86.go:186-188 -/
def Float.bitsOf (f : Float) : BitVec 16 × BitVec 64 := (f.se, f.m)

/-- float80x86.go:285-288 -/
def Float.signbit (f : Float) : Bool := f.se &&& 0x8000 != 0

/-- float80x86.go:291-294 -/
def Float.exp (f : Float) : Int := (f.se &&& 0x7FFF).toNat

/-- float80x86.go:297-299 -/
def Float.lead (f : Float) : Nat := (f.m >>> 63).toNat

/-- float80x86.go:302-304 -/
def Float.frac (f : Float) : BitVec 64 := f.m &&& 0x7FFFFFFFFFFFFFFF

/-- float80x86.go:277: `fmt.Sprintf("%s0b%d.%063bp%d", sign, lead, frac, exponent)` -/
def bigText (sign : Bool) (lead : Nat) (frac : BitVec 64) (exponent : Int) : Text :=
  (if sign then ['-'] else ['+']) ++ ['0', 'b'] ++ fmtNat 10 lead ++ ['.'] ++ fmtBinPad 63 frac.toNat
    ++ ['p'] ++ fmtInt exponent

/-- float80x86.go:224-282: `func (f Float) Big() (x *big.Float, nan bool)` -/
def Float.big (f : Float) : Go (BigFloat × Bool) := do
  let signbit := f.signbit
  let exp := f.exp
  let x ← newFloat 0
  let x := x.setPrec precision
  let x := x.setMode .toNearestEven
  if exp = 0x7FFF ∧ f.m = 0x8000000000000000 then return (x.setInf signbit, false)
  if exp = 0x7FFF then return (if signbit then x.negSelf else x, true)
  if exp = 0 ∧ f.m = 0 then return (if signbit then x.negSelf else x, false)
  let exponent := if exp = 0 then -16382 else exp - bias
  match x.parse (bigText signbit f.lead f.frac exponent) with
  | some x => return (x, false)
  | none => throw .parse

/-- float80x86.go:195-204 -/
def Float.float32 (f : Float) : Go (F32 × Accuracy) := do
  let (x, nan) ← f.big
  if nan then
    if x.signbit then return (f64to32 F64.nan.neg, .exact)
    return (f64to32 F64.nan, .exact)
  return x.float32

/-- float80x86.go:211-220 -/
def Float.float64 (f : Float) : Go (F64 × Accuracy) := do
  let (x, nan) ← f.big
  if nan then
    if x.signbit then return (F64.nan.neg, .exact)
    return (F64.nan, .exact)
  return x.float64

/-- float80x86.go:97-183: `func NewFromBig(x *big.Float) (Float, big.Accuracy)` -/
def newFromBig (x : BigFloat) : Go (Float × Accuracy) := do
  let zero ← newFloat 0
  if x.isInf then
    return (if x.signbit then NegInf else Inf, .exact)
  if x.cmp zero = .eq then
    return (if x.signbit then NegZero else Zero, .exact)
  let se : BitVec 16 := if x.signbit then 0x8000 else 0
  let m : BitVec 64 := 0
  let (exponent, mant) := x.mantExp
  let exp : Int := exponent - 1 + bias
  if exp ≤ 0 then
    -- denormalized values
    let (exp, acc) :=
      if exp ≤ -((precision : Int) - 1) then ((precision : Int) - 1, Accuracy.below) else (exp, Accuracy.exact)
    let mant := mant.setMantExpSelf (exp + precision - 1)
    let mant := if mant.signbit then mant.negSelf else mant
    let v := mant.uint64.1
    let m := m ||| (v &&& 0x7FFFFFFFFFFFFFFF)
    return (⟨se, m⟩, acc)
  let acc : Accuracy := if BitVec.ofInt 64 exp &&& ~~~0x7FFF != 0 then .above else .exact
  let se := se ||| (BitVec.ofInt 64 exp &&& 0x7FFF).setWidth 16
  let mant := if mant.signbit then mant.negSelf else mant
  let mant := mant.setMantExpSelf precision
  let acc := if !mant.isInt then .below else acc
  let (mantissa, acc2) := mant.uint64
  let acc := if acc = .exact then acc2 else acc
  let m := m ||| mantissa
  return (⟨se, m⟩, acc)

/-- float80x86.go:71-93 -/
def newFromFloat64 (x : F64) : Go (Float × Accuracy) := do
  if F64.isNaN x then
    return (if F64.signbit x then NegNaN else NaN, .exact)
  let y ← newFloat x
  let y := y.setPrec precision
  let y := y.setMode .toNearestEven
  newFromBig y

/-- float80x86.go:61-67 -/
def newFromFloat32 (x : F32) : Go (Float × Accuracy) := do
  let (f, acc) ← newFromFloat64 (f32to64 x)
  if acc = .exact then
    let (_, acc) ← f.float32
    return (f, acc)
  return (f, acc)

end GoFloat.Float80x86
