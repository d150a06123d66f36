import Verif.Model.Math
import Verif.Model.Text
/-
Model of /repo/binary128/binary128.go, function by function.
-/
namespace GoFloat.Binary128

/-- binary128.go:18 -/
def precision : Nat := 113
/-- binary128.go:20 -/
def bias : Int := 16383

/-- binary128.go:40-48: `type Float struct { a, b uint64 }` -/
structure Float where
  a : BitVec 64
  b : BitVec 64
  deriving DecidableEq, Repr

/-- binary128.go:26 -/
def NaN : Float := ⟨0x7FFF800000000000, 0⟩
/-- binary128.go:28 -/
def NegNaN : Float := ⟨0xFFFF800000000000, 0⟩
/-- binary128.go:30 -/
def Inf : Float := ⟨0x7FFF000000000000, 0⟩
/-- binary128.go:32 -/
def NegInf : Float := ⟨0xFFFF000000000000, 0⟩
/-- binary128.go:34 -/
def Zero : Float := ⟨0x0000000000000000, 0⟩
/-- binary128.go:36 -/
def NegZero : Float := ⟨0x8000000000000000, 0⟩

/-- binary128.go:52-54 -/
def newFromBits (a b : BitVec 64) : Float := ⟨a, b⟩

/-- binary128.go:189-191 -/
def Float.bitsOf (f : Float) : BitVec 64 × BitVec 64 := (f.a, f.b)

/-- binary128.go:283-286 -/
def Float.signbit (f : Float) : Bool := f.a &&& 0x8000000000000000 != 0

/-- binary128.go:289-292: `int(f.a&0x7FFF000000000000) >> 48`, where `int` has `intSize` bits: the
conversion keeps the low `intSize` bits as a signed number, the shift is arithmetic. -/
def Float.expW (intSize : Nat) (f : Float) : Int := ((f.a &&& 0x7FFF000000000000).setWidth intSize).toInt >>> 48

/-- binary128.go:289-292 on a platform with 64-bit `int`. -/
def Float.exp (f : Float) : Int := f.expW 64

/-- binary128.go:295-300 -/
def Float.frac (f : Float) : BitVec 64 × BitVec 64 := (f.a &&& 0x0000FFFFFFFFFFFF, f.b)

/-- binary128.go:274-275: `Sprintf("%048b%064b", frac1, frac2)`, then
`Sprintf("%s0b%d.%sp%d", sign, lead, fracStr, exponent)` -/
def bigText (sign : Bool) (lead : Nat) (frac1 frac2 : BitVec 64) (exponent : Int) : Text :=
  let fracStr := fmtBinPad 48 frac1.toNat ++ fmtBinPad 64 frac2.toNat
  (if sign then ['-'] else ['+']) ++ ['0', 'b'] ++ fmtNat 10 lead ++ ['.'] ++ fracStr
    ++ ['p'] ++ fmtInt exponent

/-- binary128.go:227-280: `func (f Float) Big() (x *big.Float, nan bool)`, where `exp` is the value of
`f.Exp()` (so that the 32-bit platform can be described too). -/
def Float.bigWith (f : Float) (exp : Int) : Go (BigFloat × Bool) := do
  let signbit := f.signbit
  let (frac1, frac2) := f.frac
  let x ← newFloat 0
  let x := x.setPrec precision
  let x := x.setMode .toNearestEven
  if exp = 0x7FFF ∧ frac1 = 0 ∧ frac2 = 0 then return (x.setInf signbit, false)
  if exp = 0x7FFF then return (if signbit then x.negSelf else x, true)
  if exp = 0 ∧ frac1 = 0 ∧ frac2 = 0 then return (if signbit then x.negSelf else x, false)
  let lead := if exp = 0 then 0 else 1
  let exponent := if exp = 0 then -16382 else exp - bias
  match x.parse (bigText signbit lead frac1 frac2 exponent) with
  | some x => return (x, false)
  | none => throw .parse

/-- binary128.go:227-280 on a platform with 64-bit `int`. -/
def Float.big (f : Float) : Go (BigFloat × Bool) := f.bigWith f.exp

/-- binary128.go:198-207 -/
def Float.float32 (f : Float) : Go (F32 × Accuracy) := do
  let (x, nan) ← f.big
  if nan then
    if x.signbit then return (f64to32 F64.nan.neg, .exact)
    return (f64to32 F64.nan, .exact)
  return x.float32

/-- binary128.go:214-223 -/
def Float.float64 (f : Float) : Go (F64 × Accuracy) := do
  let (x, nan) ← f.big
  if nan then
    if x.signbit then return (F64.nan.neg, .exact)
    return (F64.nan, .exact)
  return x.float64

/-- binary128.go:134-137, 169-172: bits 64 to 111 set, by a loop of `SetBit`. -/
def maskA : Nat := (List.range 48).foldl (fun m i => m ||| 1 <<< (64 + i)) 0
/-- binary128.go:138-141, 173-176: bits 0 to 63 set, by a loop of `SetBit`. -/
def maskB : Nat := (List.range 64).foldl (fun m i => m ||| 1 <<< i) 0

/-- binary128.go:88-186: `func NewFromBig(x *big.Float) (Float, big.Accuracy)`.
`mantissa.SetBit(mantissa, 112, 0)` clears bit 112. -/
def newFromBig (x : BigFloat) : Go (Float × Accuracy) := do
  let zero ← newFloat 0
  let zero := zero.setPrec precision
  if x.isInf then
    return (if x.signbit then NegInf else Inf, .exact)
  if x.cmp zero = .eq then
    return (if x.signbit then NegZero else Zero, .exact)
  let a : BitVec 64 := if x.signbit then 0x8000000000000000 else 0
  let (exponent, mant) := x.mantExp
  let exp : Int := exponent - 1 + bias
  if exp ≤ 0 then
    -- denormalized values
    let (exp, acc) :=
      if exp ≤ -((precision : Int) - 1) then ((precision : Int) - 1, Accuracy.below) else (exp, Accuracy.exact)
    let mant := mant.setMantExpSelf (exp + precision - 1)
    let mant := if mant.signbit then mant.negSelf else mant
    let mantissa := mant.intNonneg
    let bigA := (mantissa &&& maskA) >>> 64
    let bigB := mantissa &&& maskB
    let a := a ||| (BitVec.ofNat 64 bigA &&& 0x0000FFFFFFFFFFFF)
    let b := BitVec.ofNat 64 bigB
    return (⟨a, b⟩, acc)
  let acc : Accuracy := if BitVec.ofInt 64 exp &&& ~~~0x7FFF != 0 then .above else .exact
  let a := a ||| (BitVec.ofInt 64 exp &&& 0x7FFF) <<< 48
  let mant := if mant.signbit then mant.negSelf else mant
  let mant := mant.setMantExpSelf precision
  let acc := if !mant.isInt then .below else acc
  let mantissa := mant.intNonneg
  let mantissa := if mantissa.testBit 112 then mantissa - 2 ^ 112 else mantissa
  let bigA := (mantissa &&& maskA) >>> 64
  let bigB := mantissa &&& maskB
  let acc := if acc = .exact ∧ BitVec.ofNat 64 bigA &&& ~~~0x0000FFFFFFFFFFFF ≠ 0 then .below else acc
  let a := a ||| (BitVec.ofNat 64 bigA &&& 0x0000FFFFFFFFFFFF)
  let b := BitVec.ofNat 64 bigB
  return (⟨a, b⟩, acc)

/-- binary128.go:68-84 -/
def newFromFloat64 (x : F64) : Go (Float × Accuracy) := do
  if F64.isNaN x then
    return (if F64.signbit x then NegNaN else NaN, .exact)
  let y ← newFloat x
  let y := y.setPrec precision
  let y := y.setMode .toNearestEven
  newFromBig y

/-- binary128.go:58-64 -/
def newFromFloat32 (x : F32) : Go (Float × Accuracy) := do
  let (f, acc) ← newFromFloat64 (f32to64 x)
  if acc = .exact then
    let (_, acc) ← f.float32
    return (f, acc)
  return (f, acc)

end GoFloat.Binary128
