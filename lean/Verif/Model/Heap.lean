import Verif.Model.Binary16
import Verif.Model.Binary128
import Verif.Model.Float80x86
import Verif.Model.Float128ppc
import Verif.Model.Bfloat
import Verif.Model.Float
/-
The functions of /repo that take or return a `*big.Float`, with the memory they work on.

In Verif/Model/{Binary16,Binary128,Float80x86,Float128ppc,Bfloat,Float}.lean a `*big.Float` is the
number it points to. Here it is an address, and the functions read and write the cells of a memory:
two variables may hold the same address, a call may change a number that the caller still holds, and
`Big` may or may not hand out memory that somebody else knows. The statements are those of the Go text
in the order of the Go text; a statement such as `mant.Neg(mant)` names its receiver and its argument
and does not assume that they differ.

Not modelled: the words of a mantissa. A cell holds a whole `big.Float`, so the model takes for granted
that `math/big` never lets two of its numbers share the words of a mantissa (it copies them). The
`*big.Int` of binary128.go:133-147 and 165-184 stay values: each is made by `NewInt`, `new` or `Int(nil)`
and none leaves the function.
-/
namespace GoFloat

/-- The memory: the `big.Float` that exist, the one at address `p` being the `p`-th. Nothing is ever
taken away (Go frees memory only when nobody can look at it any more). -/
abbrev Heap := List BigFloat

/-- A `*big.Float`. An address outside of the memory stands for `nil`. -/
abbrev Addr := Nat

/-- A computation that reads and writes the memory, one step after the other, and may panic: it has ended,
or it reads the number at `p` and goes on with what it found, or it overwrites the number at `p`, or it
makes a new number and goes on with its address. (The steps are told apart because another goroutine may
run between two of them, see Verif/Model/Goroutines.lean.) -/
inductive Mem (α : Type) : Type where
  | done (r : Go α)
  | load (p : Addr) (k : BigFloat → Mem α)
  | store (p : Addr) (v : BigFloat) (k : Mem α)
  | alloc (v : BigFloat) (k : Addr → Mem α)

namespace Mem

/-- First `m`, then `f` with its result. A panic of `m` ends the computation. -/
def bind {α β : Type} : Mem α → (α → Mem β) → Mem β
  | done (.ok a), f => f a
  | done (.error e), _ => done (.error e)
  | load p k, f => load p (fun v => (k v).bind f)
  | store p v k, f => store p v (k.bind f)
  | alloc v k, f => alloc v (fun p => (k p).bind f)

instance : Monad Mem where
  pure a := done (.ok a)
  bind := bind

/-- The next step of a computation that is alone with the memory. Reading and writing panic on `nil`. -/
def step {α : Type} : Mem α → Heap → Mem α × Heap
  | done r, h => (done r, h)
  | load p k, h =>
    match h[p]? with
    | some v => (k v, h)
    | none => (done (.error .nilPointer), h)
  | store p v k, h => if p < h.length then (k, h.set p v) else (done (.error .nilPointer), h)
  | alloc v k, h => (k h.length, h ++ [v])

/-- All steps of a computation that is alone with the memory: its result, and the memory afterwards. What
was written before a panic stays written: a caller that recovers can see it. -/
def exec {α : Type} : Mem α → Heap → Go α × Heap
  | done r, h => (r, h)
  | load p k, h =>
    match h[p]? with
    | some v => (k v).exec h
    | none => (.error .nilPointer, h)
  | store p v k, h => if p < h.length then k.exec (h.set p v) else (.error .nilPointer, h)
  | alloc v k, h => (k h.length).exec (h ++ [v])

/-- `m h` is what the computation `m` makes of the memory `h`. -/
instance {α : Type} : CoeFun (Mem α) (fun _ => Heap → Go α × Heap) := ⟨exec⟩

/-- Read the number at `p`. -/
def get (p : Addr) : Mem BigFloat := load p (fun v => pure v)

/-- Overwrite the number at `p`. -/
def put (p : Addr) (v : BigFloat) : Mem Unit := store p v (pure ())

/-- A new cell, holding `v`. -/
def make (v : BigFloat) : Mem Addr := alloc v (fun p => pure p)

/-- A panic or the result of a computation without memory. -/
def run (g : Go α) : Mem α := done g

/-- `new(big.Float)`, `&big.Float{}` -/
def new : Mem Addr := make BigFloat.new

/-- `big.NewFloat(x)` -/
def newFloat (x : F64) : Mem Addr := do
  make (← run (GoFloat.newFloat x))

/-- `z.SetPrec(prec)`; returns `z` (for chained calls) -/
def setPrec (z : Addr) (prec : Nat) : Mem Addr := do
  put z ((← get z).setPrec prec)
  return z

/-- `z.SetMode(mode)`; returns `z` (for chained calls) -/
def setMode (z : Addr) (mode : RoundingMode) : Mem Addr := do
  put z ((← get z).setMode mode)
  return z

/-- `z.SetInf(signbit)` -/
def setInf (z : Addr) (signbit : Bool) : Mem Unit := do
  put z ((← get z).setInf signbit)

/-- `x.IsInf()` -/
def isInf (x : Addr) : Mem Bool := do return (← get x).isInf
/-- `x.Signbit()` -/
def signbit (x : Addr) : Mem Bool := do return (← get x).signbit
/-- `x.IsInt()` -/
def isInt (x : Addr) : Mem Bool := do return (← get x).isInt
/-- `x.Uint64()` -/
def uint64 (x : Addr) : Mem (BitVec 64 × Accuracy) := do return (← get x).uint64
/-- `x.Int(nil)`, first result, for a non-negative number (see `BigFloat.intNonneg`) -/
def intNonneg (x : Addr) : Mem Nat := do return (← get x).intNonneg
/-- `x.Float32()` -/
def float32 (x : Addr) : Mem (F32 × Accuracy) := do return (← get x).float32
/-- `x.Float64()` -/
def float64 (x : Addr) : Mem (F64 × Accuracy) := do return (← get x).float64
/-- `x.Acc()` -/
def acc (x : Addr) : Mem Accuracy := do return (← get x).acc
/-- `x.Cmp(y)` -/
def cmp (x y : Addr) : Mem Ordering := do return (← get x).cmp (← get y)

/-- `z.Neg(x)`: `z.Set(x)`, which does nothing when `z` and `x` are the same variable (some versions of
`math/big` then still set the accuracy; no result of /repo depends on it), then the sign is flipped. -/
def neg (z x : Addr) : Mem Unit := do
  if z = x then put z (← get z).negSelf
  else put z ((← get z).negOf (← get x))

/-- `x.MantExp(mant)`: `mant.Copy(x)`, then the exponent of `mant` is set to 0; returns the exponent.
The exponent is read before `mant` is written, so `mant` may be `x`. -/
def mantExp (x mant : Addr) : Mem Int := do
  let r := (← get x).mantExp
  put mant r.2
  return r.1

/-- `z.SetMantExp(mant, exp)`: `z.Set(mant)`, then, if `z` is finite, its exponent is raised by `exp`. -/
def setMantExp (z mant : Addr) (exp : Int) : Mem Unit := do
  if z = mant then put z ((← get z).setMantExpSelf exp)
  else put z (((← get z).set (← get mant)).setMantExpSelf exp)

/-- `z.Add(x, y)` -/
def add (z x y : Addr) : Mem Unit := do
  put z (← run ((← get z).add (← get x) (← get y)))

/-- `z.Sub(x, y)` -/
def sub (z x y : Addr) : Mem Unit := do
  put z (← run ((← get z).sub (← get x) (← get y)))

/-- `if _, _, err := z.Parse(s, 0); err != nil { panic(err) }`. A failed `Parse` leaves `z` as
it was (in Go anything; `z` is then a number that nobody else knows, and the code panics). -/
def parse (z : Addr) (s : Text) : Mem Unit := do
  match (← get z).parse s with
  | some v => put z v
  | none => run (.error .parse)

/-- `if neg { x.Neg(x) }`, in the branches for zeros and NaNs of all `Big` but float128ppc's. -/
def negIf (b : Bool) (x : Addr) : Mem Unit := do
  if b then neg x x

/-- `if mant.Signbit() { mant.Neg(mant) }`: binary16.go:129-131, 145-147, binary128.go:130-132, 158-160,
float80x86.go:153-155, 169-171. -/
def makePositive (mant : Addr) : Mem Unit := do
  if ← signbit mant then neg mant mant

end Mem

/-! ### bfloat -/

/-- bfloat.go:30-85 -/
def Bfloat.Float.bigMem (f : Bfloat.Float) : Mem (Addr × Bool) := do
  let x ← Mem.newFloat 0
  let x ← Mem.setPrec x Bfloat.precision
  let x ← Mem.setMode x .toNearestEven
  if f.exp = 0xFF then
    if f.frac = 0 then
      Mem.setInf x f.signbit
      return (x, false)
    Mem.negIf f.signbit x
    return (x, true)
  if f.exp = 0 then
    if f.frac = 0 then
      Mem.negIf f.signbit x
      return (x, false)
    Mem.parse x (Bfloat.bigText f.signbit 0 f.frac (-126))
    return (x, false)
  Mem.parse x (Bfloat.bigText f.signbit 1 f.frac (f.exp - Bfloat.bias))
  return (x, false)

/-! ### binary16 -/
namespace Binary16

/-- binary16.go:203-260 -/
def Float.bigMem (f : Float) : Mem (Addr × Bool) := do
  let x ← Mem.newFloat 0
  let x ← Mem.setPrec x precision
  let x ← Mem.setMode x .toNearestEven
  if f.exp = 0x1F then
    if f.frac = 0 then
      Mem.setInf x f.signbit
      return (x, false)
    Mem.negIf f.signbit x
    return (x, true)
  if f.exp = 0 then
    if f.frac = 0 then
      Mem.negIf f.signbit x
      return (x, false)
    Mem.parse x (bigText f.signbit 0 f.frac (-14))
    return (x, false)
  Mem.parse x (bigText f.signbit 1 f.frac (f.exp - bias))
  return (x, false)

/-- binary16.go:87-162 -/
def newFromBigMem (x : Addr) : Mem (Float × Accuracy) := do
  let z ← Mem.newFloat 0
  if ← Mem.isInf x then
    if ← Mem.signbit x then return (NegInf, .exact)
    return (Inf, .exact)
  if (← Mem.cmp x z) = .eq then
    if ← Mem.signbit x then return (NegZero, .exact)
    return (Zero, .exact)
  let bits : BitVec 16 := if ← Mem.signbit x then 0x8000 else 0
  let mant ← Mem.new
  let exponent ← Mem.mantExp x mant
  let exp : Int := exponent - 1 + bias
  if exp ≤ 0 then
    let big := decide (exp ≤ -((precision : Int) - 1))
    let acc : Accuracy := if big then .below else .exact
    let exp : Int := if big then (precision : Int) - 1 else exp
    Mem.setMantExp mant mant (exp + precision - 1)
    Mem.makePositive mant
    let (mantissa, _) ← Mem.uint64 mant
    return (⟨bits ||| (mantissa &&& 0x7FF).setWidth 16⟩, acc)
  let acc : Accuracy := if BitVec.ofInt 64 exp &&& ~~~0x1F != 0 then .above else .exact
  let bits := bits ||| (BitVec.ofInt 64 exp &&& 0x1F).setWidth 16 <<< 10
  Mem.makePositive mant
  Mem.setMantExp mant mant precision
  let acc := if !(← Mem.isInt mant) then .below else acc
  let (mantissa, _) ← Mem.uint64 mant
  let mantissa := mantissa &&& ~~~0x400
  let acc := if acc = .exact ∧ mantissa &&& ~~~0x7FF ≠ 0 then .below else acc
  let mantissa := mantissa &&& 0x7FF
  return (⟨bits ||| mantissa.setWidth 16⟩, acc)

/-- binary16.go:67-83 -/
def newFromFloat64Mem (x : F64) : Mem (Float × Accuracy) := do
  if F64.isNaN x then
    if F64.signbit x then return (NegNaN, .exact)
    return (NaN, .exact)
  let y ← Mem.newFloat x
  let y ← Mem.setPrec y precision
  let y ← Mem.setMode y .toNearestEven
  newFromBigMem y

/-- binary16.go:174-183 -/
def Float.float32Mem (f : Float) : Mem (F32 × Accuracy) := do
  let (x, nan) ← f.bigMem
  if nan then
    if ← Mem.signbit x then return (f64to32 F64.nan.neg, .exact)
    return (f64to32 F64.nan, .exact)
  Mem.float32 x

/-- binary16.go:190-199 -/
def Float.float64Mem (f : Float) : Mem (F64 × Accuracy) := do
  let (x, nan) ← f.bigMem
  if nan then
    if ← Mem.signbit x then return (F64.nan.neg, .exact)
    return (F64.nan, .exact)
  Mem.float64 x

/-- binary16.go:57-63 -/
def newFromFloat32Mem (x : F32) : Mem (Float × Accuracy) := do
  let (f, acc) ← newFromFloat64Mem (f32to64 x)
  if acc = .exact then
    let (_, acc) ← f.float32Mem
    return (f, acc)
  return (f, acc)

end Binary16

/-! ### binary128 -/
namespace Binary128

/-- binary128.go:227-280, with 64-bit `int` (`Float.exp`) -/
def Float.bigMem (f : Float) : Mem (Addr × Bool) := do
  let x ← Mem.newFloat 0
  let x ← Mem.setPrec x precision
  let x ← Mem.setMode x .toNearestEven
  if f.exp = 0x7FFF then
    if f.frac.1 = 0 ∧ f.frac.2 = 0 then
      Mem.setInf x f.signbit
      return (x, false)
    Mem.negIf f.signbit x
    return (x, true)
  if f.exp = 0 then
    if f.frac.1 = 0 ∧ f.frac.2 = 0 then
      Mem.negIf f.signbit x
      return (x, false)
    Mem.parse x (bigText f.signbit 0 f.frac.1 f.frac.2 (-16382))
    return (x, false)
  Mem.parse x (bigText f.signbit 1 f.frac.1 f.frac.2 (f.exp - bias))
  return (x, false)

/-- binary128.go:88-186 -/
def newFromBigMem (x : Addr) : Mem (Float × Accuracy) := do
  let z ← Mem.newFloat 0
  let z ← Mem.setPrec z precision
  if ← Mem.isInf x then
    if ← Mem.signbit x then return (NegInf, .exact)
    return (Inf, .exact)
  if (← Mem.cmp x z) = .eq then
    if ← Mem.signbit x then return (NegZero, .exact)
    return (Zero, .exact)
  let a : BitVec 64 := if ← Mem.signbit x then 0x8000000000000000 else 0
  let mant ← Mem.new
  let mant ← Mem.setPrec mant precision
  let exponent ← Mem.mantExp x mant
  let exp : Int := exponent - 1 + bias
  if exp ≤ 0 then
    let big := decide (exp ≤ -((precision : Int) - 1))
    let acc : Accuracy := if big then .below else .exact
    let exp : Int := if big then (precision : Int) - 1 else exp
    Mem.setMantExp mant mant (exp + precision - 1)
    Mem.makePositive mant
    let mantissa ← Mem.intNonneg mant
    let bigA := (mantissa &&& maskA) >>> 64
    let bigB := mantissa &&& maskB
    return (⟨a ||| (BitVec.ofNat 64 bigA &&& 0x0000FFFFFFFFFFFF), BitVec.ofNat 64 bigB⟩, acc)
  let acc : Accuracy := if BitVec.ofInt 64 exp &&& ~~~0x7FFF != 0 then .above else .exact
  let a := a ||| (BitVec.ofInt 64 exp &&& 0x7FFF) <<< 48
  Mem.makePositive mant
  Mem.setMantExp mant mant precision
  let acc := if !(← Mem.isInt mant) then .below else acc
  let mantissa ← Mem.intNonneg mant
  let mantissa := if mantissa.testBit 112 then mantissa - 2 ^ 112 else mantissa
  let bigA := (mantissa &&& maskA) >>> 64
  let bigB := mantissa &&& maskB
  let acc := if acc = .exact ∧ BitVec.ofNat 64 bigA &&& ~~~0x0000FFFFFFFFFFFF ≠ 0 then .below else acc
  return (⟨a ||| (BitVec.ofNat 64 bigA &&& 0x0000FFFFFFFFFFFF), BitVec.ofNat 64 bigB⟩, acc)

/-- binary128.go:68-84 -/
def newFromFloat64Mem (x : F64) : Mem (Float × Accuracy) := do
  if F64.isNaN x then
    if F64.signbit x then return (NegNaN, .exact)
    return (NaN, .exact)
  let y ← Mem.newFloat x
  let y ← Mem.setPrec y precision
  let y ← Mem.setMode y .toNearestEven
  newFromBigMem y

/-- binary128.go:198-207 -/
def Float.float32Mem (f : Float) : Mem (F32 × Accuracy) := do
  let (x, nan) ← f.bigMem
  if nan then
    if ← Mem.signbit x then return (f64to32 F64.nan.neg, .exact)
    return (f64to32 F64.nan, .exact)
  Mem.float32 x

/-- binary128.go:214-223 -/
def Float.float64Mem (f : Float) : Mem (F64 × Accuracy) := do
  let (x, nan) ← f.bigMem
  if nan then
    if ← Mem.signbit x then return (F64.nan.neg, .exact)
    return (F64.nan, .exact)
  Mem.float64 x

/-- binary128.go:58-64 -/
def newFromFloat32Mem (x : F32) : Mem (Float × Accuracy) := do
  let (f, acc) ← newFromFloat64Mem (f32to64 x)
  if acc = .exact then
    let (_, acc) ← f.float32Mem
    return (f, acc)
  return (f, acc)

end Binary128

/-! ### float80x86 -/
namespace Float80x86

/-- float80x86.go:224-282 -/
def Float.bigMem (f : Float) : Mem (Addr × Bool) := do
  let x ← Mem.newFloat 0
  let x ← Mem.setPrec x precision
  let x ← Mem.setMode x .toNearestEven
  if f.exp = 0x7FFF then
    if f.m = 0x8000000000000000 then
      Mem.setInf x f.signbit
      return (x, false)
    Mem.negIf f.signbit x
    return (x, true)
  if f.exp = 0 then
    if f.m = 0 then
      Mem.negIf f.signbit x
      return (x, false)
    Mem.parse x (bigText f.signbit f.lead f.frac (-16382))
    return (x, false)
  Mem.parse x (bigText f.signbit f.lead f.frac (f.exp - bias))
  return (x, false)

/-- float80x86.go:97-183 -/
def newFromBigMem (x : Addr) : Mem (Float × Accuracy) := do
  let z ← Mem.newFloat 0
  if ← Mem.isInf x then
    if ← Mem.signbit x then return (NegInf, .exact)
    return (Inf, .exact)
  if (← Mem.cmp x z) = .eq then
    if ← Mem.signbit x then return (NegZero, .exact)
    return (Zero, .exact)
  let se : BitVec 16 := if ← Mem.signbit x then 0x8000 else 0
  let m : BitVec 64 := 0
  let mant ← Mem.new
  let exponent ← Mem.mantExp x mant
  let exp : Int := exponent - 1 + bias
  if exp ≤ 0 then
    let big := decide (exp ≤ -((precision : Int) - 1))
    let acc : Accuracy := if big then .below else .exact
    let exp : Int := if big then (precision : Int) - 1 else exp
    Mem.setMantExp mant mant (exp + precision - 1)
    Mem.makePositive mant
    let (v, _) ← Mem.uint64 mant
    return (⟨se, m ||| (v &&& 0x7FFFFFFFFFFFFFFF)⟩, acc)
  let acc : Accuracy := if BitVec.ofInt 64 exp &&& ~~~0x7FFF != 0 then .above else .exact
  let se := se ||| (BitVec.ofInt 64 exp &&& 0x7FFF).setWidth 16
  Mem.makePositive mant
  Mem.setMantExp mant mant precision
  let acc := if !(← Mem.isInt mant) then .below else acc
  let (mantissa, acc2) ← Mem.uint64 mant
  let acc := if acc = .exact then acc2 else acc
  return (⟨se, m ||| mantissa⟩, acc)

/-- float80x86.go:71-93 -/
def newFromFloat64Mem (x : F64) : Mem (Float × Accuracy) := do
  if F64.isNaN x then
    if F64.signbit x then return (NegNaN, .exact)
    return (NaN, .exact)
  let y ← Mem.newFloat x
  let y ← Mem.setPrec y precision
  let y ← Mem.setMode y .toNearestEven
  newFromBigMem y

/-- float80x86.go:195-204 -/
def Float.float32Mem (f : Float) : Mem (F32 × Accuracy) := do
  let (x, nan) ← f.bigMem
  if nan then
    if ← Mem.signbit x then return (f64to32 F64.nan.neg, .exact)
    return (f64to32 F64.nan, .exact)
  Mem.float32 x

/-- float80x86.go:211-220 -/
def Float.float64Mem (f : Float) : Mem (F64 × Accuracy) := do
  let (x, nan) ← f.bigMem
  if nan then
    if ← Mem.signbit x then return (F64.nan.neg, .exact)
    return (F64.nan, .exact)
  Mem.float64 x

/-- float80x86.go:61-67 -/
def newFromFloat32Mem (x : F32) : Mem (Float × Accuracy) := do
  let (f, acc) ← newFromFloat64Mem (f32to64 x)
  if acc = .exact then
    let (_, acc) ← f.float32Mem
    return (f, acc)
  return (f, acc)

end Float80x86

/-! ### float128ppc -/
namespace Float128ppc

/-- float128ppc.go:154-174 -/
def Float.bigMem (f : Float) : Mem (Addr × Bool) := do
  let x ← Mem.newFloat 0
  let x ← Mem.setPrec x precision
  let x ← Mem.setMode x .toNearestEven
  if f.isNaN then return (x, true)
  let h ← Mem.newFloat f.high
  let h ← Mem.setPrec h precision
  let l ← Mem.newFloat f.low
  let l ← Mem.setPrec l precision
  Mem.add x h l
  let z ← Mem.newFloat 0
  let z ← Mem.setPrec z precision
  if (← Mem.cmp x z) = .eq ∧ F64.signbit f.high then
    if !(← Mem.signbit x) then
      Mem.neg x x
  return (x, false)

/-- float128ppc.go:82-121 -/
def newFromBigMem (x : Addr) : Mem (Float × Accuracy) := do
  let z ← Mem.newFloat 0
  let z ← Mem.setPrec z precision
  if ← Mem.isInf x then
    if ← Mem.signbit x then return (NegInf, .exact)
    return (Inf, .exact)
  if (← Mem.cmp x z) = .eq then
    if ← Mem.signbit x then return (NegZero, .exact)
    return (Zero, .exact)
  let _ ← Mem.setMode (← Mem.setPrec x precision) .toNearestEven
  let (high, _) ← Mem.float64 x
  let h ← Mem.newFloat high
  let h ← Mem.setMode (← Mem.setPrec h precision) .toNearestEven
  let l ← Mem.newFloat 0
  let l ← Mem.setMode (← Mem.setPrec l precision) .toNearestEven
  Mem.sub l x h
  let (low, _) ← Mem.float64 l
  let result ← Mem.newFloat 0
  let result ← Mem.setMode (← Mem.setPrec result precision) .toNearestEven
  Mem.add result h l
  let acc := Accuracy.ofOrdering (← Mem.cmp x result)
  return (⟨high, low⟩, acc)

/-- float128ppc.go:64-78 -/
def newFromFloat64Mem (x : F64) : Mem (Float × Accuracy) := do
  if F64.isNaN x then
    if F64.signbit x then return (NegNaN, .exact)
    return (NaN, .exact)
  let r : Float := ⟨x, 0⟩
  let (br, _) ← r.bigMem
  return (r, ← Mem.acc br)

/-- float128ppc.go:129-138 -/
def Float.float32Mem (f : Float) : Mem (F32 × Accuracy) := do
  let (x, nan) ← f.bigMem
  if nan then
    if ← Mem.signbit x then return (f64to32 F64.nan.neg, .exact)
    return (f64to32 F64.nan, .exact)
  Mem.float32 x

/-- float128ppc.go:141-150 -/
def Float.float64Mem (f : Float) : Mem (F64 × Accuracy) := do
  let (x, nan) ← f.bigMem
  if nan then
    if ← Mem.signbit x then return (F64.nan.neg, .exact)
    return (F64.nan, .exact)
  Mem.float64 x

/-- float128ppc.go:54-60 -/
def newFromFloat32Mem (x : F32) : Mem (Float × Accuracy) := do
  let (f, acc) ← newFromFloat64Mem (f32to64 x)
  if acc = .exact then
    let (_, acc) ← f.float32Mem
    return (f, acc)
  return (f, acc)

end Float128ppc

/-! ### float.go -/

/-- float.go:14-22 -/
def isExact16Mem (W : Nat) (x : Addr) : Mem Bool := do
  let (f, acc) ← Mem.float64 x
  if acc ≠ .exact then return false
  let s1 ← Mem.run (Strconv.formatFloat W f 'e' (-1) 16)
  let s2 ← Mem.run (trimZeros ((← Mem.get x).textE 100))
  return s1 == s2

/-- float.go:26-34 -/
def isExact32Mem (W : Nat) (x : Addr) : Mem Bool := do
  let (f, acc) ← Mem.float32 x
  if acc ≠ .exact then return false
  let s1 ← Mem.run (Strconv.formatFloat W (f32to64 f) 'e' (-1) 32)
  let s2 ← Mem.run (trimZeros ((← Mem.get x).textE 100))
  return s1 == s2

/-- float.go:38-46 -/
def isExact64Mem (W : Nat) (x : Addr) : Mem Bool := do
  let (f, acc) ← Mem.float64 x
  if acc ≠ .exact then return false
  let s1 ← Mem.run (Strconv.formatFloat W f 'e' (-1) 64)
  let s2 ← Mem.run (trimZeros ((← Mem.get x).textE 100))
  return s1 == s2

end GoFloat
