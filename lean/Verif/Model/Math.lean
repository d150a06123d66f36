import Verif.Model.BigFloat
/-
Model of Go's float64 / float32 values as bit patterns: package `math` (`IsNaN`, `Signbit`, `NaN`,
`Inf`, `Copysign`, `Float64bits`, ...), `big.NewFloat`, and the conversions `float64(x)`, `float32(x)`.
Standard library / hardware: part of the trusted base.
-/
namespace GoFloat

/-- A Go `float64`, as its IEEE 754 bits (`math.Float64bits`). -/
abbrev F64 := BitVec 64
/-- A Go `float32`, as its IEEE 754 bits (`math.Float32bits`). -/
abbrev F32 := BitVec 32

namespace F64
/-- `math.IsNaN(x)` -/
def isNaN (x : F64) : Bool := x.toNat % 2 ^ 63 > 0x7FF * 2 ^ 52
/-- `math.Signbit(x)` -/
def signbit (x : F64) : Bool := x.toNat / 2 ^ 63 == 1
/-- `math.NaN()` = `Float64frombits(0x7FF8000000000001)` -/
def nan : F64 := 0x7FF8000000000001
/-- `-x` (flips the sign bit, also of NaN) -/
def neg (x : F64) : F64 := x ^^^ 0x8000000000000000
/-- `math.Inf(sign)`: `+Inf` for `sign ≥ 0`, `-Inf` otherwise -/
def inf (sign : Int) : F64 := if sign ≥ 0 then 0x7FF0000000000000 else 0xFFF0000000000000
/-- `math.Copysign(0, -1)` -/
def negZero : F64 := 0x8000000000000000
end F64

namespace F32
/-- NaN test for float32 -/
def isNaN (x : F32) : Bool := x.toNat % 2 ^ 31 > 0xFF * 2 ^ 23
/-- sign bit of a float32 -/
def signbit (x : F32) : Bool := x.toNat / 2 ^ 31 == 1
end F32

/-- The exact `big.Float` value of a non-NaN IEEE bit pattern with `mbits` fraction bits and `ebits`
exponent bits; precision `mbits + 1`. This is what `Float.SetFloat64` computes (via `math.Frexp`). -/
def decodeIEEE (mbits ebits : Nat) (bits : Nat) : BigFloat :=
  let neg : Bool := bits / 2 ^ (mbits + ebits) % 2 == 1
  let E : Nat := bits / 2 ^ mbits % 2 ^ ebits
  let T : Nat := bits % 2 ^ mbits
  let bias : Int := 2 ^ (ebits - 1) - 1
  let z : BigFloat := { BigFloat.new with prec := mbits + 1, neg := neg }
  if E = 2 ^ ebits - 1 then { z with form := .inf }
  else if E = 0 ∧ T = 0 then z
  else
    let m : Nat := if E = 0 then T else 2 ^ mbits + T
    let e : Int := (max E 1 : Nat) - bias - mbits
    { z with form := .finite, mant := m, exp := e + bitLen m }

/-- `big.NewFloat(x)`: precision 53, mode ToNearestEven; panics on NaN. -/
def newFloat (x : F64) : Go BigFloat :=
  if F64.isNaN x then .error .errNaN else .ok (decodeIEEE 52 11 x.toNat)

/-- Go conversion `float64(x)` of a float32: exact; a NaN keeps sign and payload and becomes quiet. -/
def f32to64 (x : F32) : F64 :=
  if F32.isNaN x then
    BitVec.ofNat 64 (x.toNat / 2 ^ 31 * 2 ^ 63 + 0x7FF * 2 ^ 52 + ((x.toNat % 2 ^ 23) ||| 0x400000) * 2 ^ 29)
  else BitVec.ofNat 64 (BigFloat.toIEEE 52 11 (decodeIEEE 23 8 x.toNat)).1

/-- Go conversion `float32(x)` of a float64: round to nearest even; a NaN keeps its sign and the upper
payload bits and becomes quiet. -/
def f64to32 (x : F64) : F32 :=
  if F64.isNaN x then
    BitVec.ofNat 32 (x.toNat / 2 ^ 63 * 2 ^ 31 + 0xFF * 2 ^ 23 + ((x.toNat / 2 ^ 29 % 2 ^ 23) ||| 0x400000))
  else BitVec.ofNat 32 (BigFloat.toIEEE 23 8 (decodeIEEE 52 11 x.toNat)).1

end GoFloat
