import Verif.Model.Math
/-
Model of /repo/float128ppc/float128ppc.go, function by function.
-/
namespace GoFloat.Float128ppc

/-- float128ppc.go:15 -/
def precision : Nat := 106

/-- float128ppc.go:35-39: `type Float struct { high, low float64 }` -/
structure Float where
  high : F64
  low : F64
  deriving DecidableEq, Repr

/-- float128ppc.go:21 -/
def NaN : Float := ⟨F64.nan, 0⟩
/-- float128ppc.go:23 -/
def NegNaN : Float := ⟨F64.nan.neg, 0⟩
/-- float128ppc.go:25: `math.Inf(1)` -/
def Inf : Float := ⟨F64.inf 1, 0⟩
/-- float128ppc.go:27: `-math.Inf(-1)` -/
def NegInf : Float := ⟨F64.neg (F64.inf (-1)), 0⟩
/-- float128ppc.go:29 -/
def Zero : Float := ⟨0, 0⟩
/-- float128ppc.go:31 -/
def NegZero : Float := ⟨F64.negZero, 0⟩

/-- float128ppc.go:43-50 -/
def newFromBits (a b : BitVec 64) : Float := ⟨a, b⟩

/-- float128ppc.go:124-126 -/
def Float.bitsOf (f : Float) : BitVec 64 × BitVec 64 := (f.high, f.low)

/-- float128ppc.go:177-180 -/
def Float.isNaN (f : Float) : Bool := F64.isNaN f.high || F64.isNaN f.low

/-- float128ppc.go:154-174: `func (f Float) Big() (x *big.Float, nan bool)` -/
def Float.big (f : Float) : Go (BigFloat × Bool) := do
  let x ← newFloat 0
  let x := x.setPrec precision
  let x := x.setMode .toNearestEven
  if f.isNaN then return (x, true)
  let h ← newFloat f.high
  let h := h.setPrec precision
  let l ← newFloat f.low
  let l := l.setPrec precision
  let x ← x.add h l
  let zero ← newFloat 0
  let zero := zero.setPrec precision
  if x.cmp zero = .eq ∧ F64.signbit f.high then
    -- -zero
    return (if !x.signbit then x.negSelf else x, false)
  return (x, false)

/-- float128ppc.go:129-138 -/
def Float.float32 (f : Float) : Go (F32 × Accuracy) := do
  let (x, nan) ← f.big
  if nan then
    if x.signbit then return (f64to32 F64.nan.neg, .exact)
    return (f64to32 F64.nan, .exact)
  return x.float32

/-- float128ppc.go:141-150 -/
def Float.float64 (f : Float) : Go (F64 × Accuracy) := do
  let (x, nan) ← f.big
  if nan then
    if x.signbit then return (F64.nan.neg, .exact)
    return (F64.nan, .exact)
  return x.float64

/-- float128ppc.go:82-121: `func NewFromBig(x *big.Float) (Float, big.Accuracy)`. The function changes
the variable `*x`; the second component of the result is its final value. -/
def newFromBig (x : BigFloat) : Go ((Float × Accuracy) × BigFloat) := do
  let zero ← newFloat 0
  let zero := zero.setPrec precision
  if x.isInf then
    return ((if x.signbit then NegInf else Inf, .exact), x)
  if x.cmp zero = .eq then
    return ((if x.signbit then NegZero else Zero, .exact), x)
  let x := (x.setPrec precision).setMode .toNearestEven
  let high := x.float64.1
  let h ← newFloat high
  let h := (h.setPrec precision).setMode .toNearestEven
  let l ← newFloat 0
  let l := (l.setPrec precision).setMode .toNearestEven
  let l ← l.sub x h
  let low := l.float64.1
  let result ← newFloat 0
  let result := (result.setPrec precision).setMode .toNearestEven
  let result ← result.add h l
  let acc := Accuracy.ofOrdering (x.cmp result)
  return ((⟨high, low⟩, acc), x)

/-- float128ppc.go:64-78 -/
def newFromFloat64 (x : F64) : Go (Float × Accuracy) := do
  if F64.isNaN x then
    return (if F64.signbit x then NegNaN else NaN, .exact)
  let r : Float := ⟨x, 0⟩
  let (br, _) ← r.big
  return (r, br.acc)

/-- float128ppc.go:54-60 -/
def newFromFloat32 (x : F32) : Go (Float × Accuracy) := do
  let (f, acc) ← newFromFloat64 (f32to64 x)
  if acc = .exact then
    let (_, acc) ← f.float32
    return (f, acc)
  return (f, acc)

end GoFloat.Float128ppc
