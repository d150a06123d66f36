import Verif.Model.Go
/-
Model of the parts of the standard library's `math/big.Float` that /repo uses.

The Go source of `math/big` is not in the sandbox; this follows its documentation and the published
implementation (`math/big/float.go`, `ftoa.go`, `floatconv.go`). It belongs to the trusted base.
A finite, non-zero `Float` is `(-1)^neg * 0.mant * 2^exp` with `0.5 <= 0.mant < 1`. Go stores `mant` as
a word slice whose top bit is set; the model stores it as a natural number `mant > 0`, read as
`0.mant = mant / 2^(bitLen mant)`, so trailing zero words do not matter.
-/
namespace GoFloat

/-- `math/big` `form`. -/
inductive Form
  | zero | finite | inf
  deriving DecidableEq, Repr

/-- `math/big.Float`. -/
structure BigFloat where
  prec : Nat
  mode : RoundingMode
  acc : Accuracy
  form : Form
  neg : Bool
  mant : Nat
  exp : Int
  deriving DecidableEq, Repr

namespace BigFloat

/-- `big.MaxExp`. -/
def MaxExp : Int := 2147483647
/-- `big.MinExp`. -/
def MinExp : Int := -2147483648
/-- `big.MaxPrec`. -/
def MaxPrec : Nat := 4294967295

/-- `new(big.Float)` / `&big.Float{}`: the zero value, `+0` with precision 0. -/
def new : BigFloat :=
  { prec := 0, mode := .toNearestEven, acc := .exact, form := .zero, neg := false, mant := 0, exp := 0 }

/-- Whether rounding increments the magnitude, given the rounding bit, the sticky bit and the
last kept bit (the `switch z.mode` of `Float.round`). -/
def roundInc (mode : RoundingMode) (neg rbit sbit lsb : Bool) : Bool :=
  match mode with
  | .toNegativeInf => neg
  | .toZero => false
  | .toNearestEven => rbit && (sbit || lsb)
  | .toNearestAway => rbit
  | .awayFromZero => true
  | .toPositiveInf => !neg

/-- `Float.round(0)`: round the mantissa to `prec` bits, set `acc`. -/
def round (z : BigFloat) : BigFloat :=
  match z.form with
  | .finite =>
    let bits := bitLen z.mant
    if bits ≤ z.prec then { z with acc := .exact }
    else
      let s := bits - z.prec
      let q := z.mant >>> s
      let rbit := z.mant.testBit (s - 1)
      let sbit := z.mant % 2 ^ (s - 1) != 0
      if !rbit && !sbit then { z with acc := .exact, mant := q }
      else
        let inc := roundInc z.mode z.neg rbit sbit (q.testBit 0)
        let acc := makeAcc (inc != z.neg)
        if inc then
          if q + 1 = 2 ^ z.prec then
            -- mantissa overflow
            if z.exp ≥ MaxExp then { z with acc := acc, form := .inf }
            else { z with acc := acc, mant := 2 ^ (z.prec - 1), exp := z.exp + 1 }
          else { z with acc := acc, mant := q + 1 }
        else { z with acc := acc, mant := q }
  | _ => { z with acc := .exact }

/-- `Float.setExpAndRound(exp, 0)`. -/
def setExpAndRound (z : BigFloat) (exp : Int) : BigFloat :=
  if exp < MinExp then { z with acc := makeAcc z.neg, form := .zero }
  else if exp > MaxExp then { z with acc := makeAcc (!z.neg), form := .inf }
  else round { z with form := .finite, exp := exp }

/-- `z.SetPrec(prec)`. -/
def setPrec (z : BigFloat) (prec : Nat) : BigFloat :=
  if prec = 0 then
    if z.form = .finite then { z with prec := 0, acc := makeAcc z.neg, form := .zero }
    else { z with prec := 0, acc := .exact }
  else
    let prec := min prec MaxPrec
    if prec < z.prec then round { z with prec := prec } else { z with prec := prec, acc := .exact }

/-- `z.SetMode(mode)`. -/
def setMode (z : BigFloat) (mode : RoundingMode) : BigFloat := { z with mode := mode, acc := .exact }

/-- `z.SetInf(signbit)`. -/
def setInf (z : BigFloat) (signbit : Bool) : BigFloat :=
  { z with acc := .exact, form := .inf, neg := signbit }

/-- `z.Set(x)` for distinct `z`, `x`. -/
def set (z x : BigFloat) : BigFloat :=
  let z1 : BigFloat := { z with acc := .exact, form := x.form, neg := x.neg,
                                mant := if x.form = .finite then x.mant else z.mant,
                                exp := if x.form = .finite then x.exp else z.exp }
  if z.prec = 0 then { z1 with prec := x.prec }
  else if z.prec < x.prec then round z1
  else z1

/-- `z.Neg(z)` (receiver and argument are the same variable everywhere in /repo). -/
def negSelf (z : BigFloat) : BigFloat := { z with neg := !z.neg }

/-- `z.Neg(x)` for distinct `z`, `x`. -/
def negOf (z x : BigFloat) : BigFloat := (set z x).negSelf

/-- `x.Signbit()`. -/
def signbit (x : BigFloat) : Bool := x.neg

/-- `x.IsInf()`. -/
def isInf (x : BigFloat) : Bool := x.form == .inf

/-- `x.ucmp(y)`: compares the magnitudes of two finite numbers. -/
def ucmp (x y : BigFloat) : Ordering :=
  if x.exp < y.exp then .lt
  else if x.exp > y.exp then .gt
  else
    -- equal exponents: compare 0.mant, aligning the longer mantissa
    let lx := bitLen x.mant
    let ly := bitLen y.mant
    compare (x.mant <<< (ly - lx)) (y.mant <<< (lx - ly))

/-- `x.ord()`: -2, -1, 0, +1, +2 for -Inf, -finite, zero, +finite, +Inf. -/
def ord (x : BigFloat) : Int :=
  match x.form with
  | .finite => if x.neg then -1 else 1
  | .zero => 0
  | .inf => if x.neg then -2 else 2

/-- `x.Cmp(y)`. -/
def cmp (x y : BigFloat) : Ordering :=
  let mx := x.ord
  let my := y.ord
  if mx < my then .lt
  else if mx > my then .gt
  else if mx = -1 then ucmp y x
  else if mx = 1 then ucmp x y
  else .eq

/-- `x.MantExp(mant)`: the exponent, and the new value of `mant` (a copy of `x`, including its
precision, mode and accuracy, with exponent 0). -/
def mantExp (x : BigFloat) : Int × BigFloat :=
  if x.form = .finite then (x.exp, { x with exp := 0 }) else (0, x)

/-- `z.SetMantExp(z, exp)` (receiver and argument are the same variable everywhere in /repo). -/
def setMantExpSelf (z : BigFloat) (exp : Int) : BigFloat :=
  if z.form = .finite then setExpAndRound z (z.exp + exp) else z

/-- `x.MinPrec()`. -/
def minPrec (x : BigFloat) : Nat :=
  if x.form = .finite then bitLen x.mant - ntz x.mant else 0

/-- `x.IsInt()`. -/
def isInt (x : BigFloat) : Bool :=
  match x.form with
  | .finite => decide (0 < x.exp) && (decide ((x.prec : Int) ≤ x.exp) || decide ((x.minPrec : Int) ≤ x.exp))
  | .zero => true
  | .inf => false

/-- The magnitude of a finite `x` truncated to an integer: `⌊0.mant * 2^exp⌋`. -/
def truncMag (x : BigFloat) : Nat :=
  let e : Int := x.exp - bitLen x.mant
  if 0 ≤ e then x.mant <<< e.toNat else x.mant >>> (-e).toNat

/-- `x.Uint64()`. The accuracy follows the documentation ("Exact if x is an integer"). -/
def uint64 (x : BigFloat) : BitVec 64 × Accuracy :=
  match x.form with
  | .finite =>
    if x.neg then (0, .above)
    else if x.exp ≤ 0 then (0, .below)
    else if x.exp ≤ 64 then (BitVec.ofNat 64 x.truncMag, if x.isInt then .exact else .below)
    else (BitVec.ofNat 64 (2 ^ 64 - 1), .below)
  | .zero => (0, .exact)
  | .inf => if x.neg then (0, .above) else (BitVec.ofNat 64 (2 ^ 64 - 1), .below)

/-- `x.Int(nil)`, first result, for a non-negative `x` that is not an infinity
(the only use in /repo; an infinity would give a nil pointer, modelled as 0 and never used). -/
def intNonneg (x : BigFloat) : Nat :=
  match x.form with
  | .finite => x.truncMag
  | _ => 0

/-- `z.uadd(x, y)`: sets `z` to the rounded `|x| + |y|`, keeping `z.neg`. -/
def uadd (z x y : BigFloat) : BigFloat :=
  let ex : Int := x.exp - bitLen x.mant
  let ey : Int := y.exp - bitLen y.mant
  let e : Int := min ex ey
  let m := x.mant <<< (ex - e).toNat + y.mant <<< (ey - e).toNat
  setExpAndRound { z with mant := m } (e + bitLen m)

/-- `z.usub(x, y)`: sets `z` to the rounded `|x| - |y|` for `|x| ≥ |y|`, keeping `z.neg`
unless the difference is zero. -/
def usub (z x y : BigFloat) : BigFloat :=
  let ex : Int := x.exp - bitLen x.mant
  let ey : Int := y.exp - bitLen y.mant
  let e : Int := min ex ey
  let m := x.mant <<< (ex - e).toNat - y.mant <<< (ey - e).toNat
  if m = 0 then { z with acc := .exact, form := .zero, neg := false }
  else setExpAndRound { z with mant := m } (e + bitLen m)

/-- `z.Add(x, y)` for `z` distinct from `x`, `y`. -/
def add (z x y : BigFloat) : Go BigFloat :=
  let z := if z.prec = 0 then { z with prec := max x.prec y.prec } else z
  match x.form, y.form with
  | .finite, .finite =>
    let r :=
      if x.neg = y.neg then uadd { z with neg := x.neg } x y
      else if ucmp x y = .gt then usub { z with neg := x.neg } x y
      else usub { z with neg := !x.neg } y x
    .ok (if r.form = .zero ∧ r.mode = .toNegativeInf ∧ r.acc = .exact then { r with neg := true } else r)
  | .inf, .inf => if x.neg ≠ y.neg then .error .errNaN else .ok (set z x)
  | .zero, .zero => .ok { z with acc := .exact, form := .zero, neg := x.neg && y.neg }
  | .inf, _ => .ok (set z x)
  | _, .zero => .ok (set z x)
  | _, _ => .ok (set z y)

/-- `z.Sub(x, y)` for `z` distinct from `x`, `y`. -/
def sub (z x y : BigFloat) : Go BigFloat :=
  let z := if z.prec = 0 then { z with prec := max x.prec y.prec } else z
  match x.form, y.form with
  | .finite, .finite =>
    let r :=
      if x.neg ≠ y.neg then uadd { z with neg := x.neg } x y
      else if ucmp x y = .gt then usub { z with neg := x.neg } x y
      else usub { z with neg := !x.neg } y x
    .ok (if r.form = .zero ∧ r.mode = .toNegativeInf ∧ r.acc = .exact then { r with neg := true } else r)
  | .inf, .inf => if x.neg = y.neg then .error .errNaN else .ok (set z x)
  | .zero, .zero => .ok { z with acc := .exact, form := .zero, neg := x.neg && !y.neg }
  | .inf, _ => .ok (set z x)
  | _, .zero => .ok (set z x)
  | _, _ => .ok (negOf z y)

/-- Common part of `x.Float32()` and `x.Float64()`: the bit pattern of the nearest float of the format
with `mbits` fraction bits and `ebits` exponent bits, and the accuracy.
(`Float32`: mbits 23, ebits 8; `Float64`: mbits 52, ebits 11.) -/
def toIEEE (mbits ebits : Nat) (x : BigFloat) : Nat × Accuracy :=
  let bias : Int := 2 ^ (ebits - 1) - 1
  let emin : Int := 1 - bias
  let emax : Int := bias
  let sign : Nat := if x.neg then 2 ^ (mbits + ebits) else 0
  let infBits : Nat := (2 ^ ebits - 1) * 2 ^ mbits
  match x.form with
  | .finite =>
    let e := x.exp - 1
    -- precision of the target at this exponent
    let p : Int := if e < emin then mbits + 1 - emin + e else mbits + 1
    -- underflow: |x| is at most half of the smallest subnormal
    if p < 0 ∨ (p = 0 ∧ x.mant = 2 ^ (bitLen x.mant - 1)) then
      (sign, if x.neg then .above else .below)
    else if p = 0 then
      -- more than half of the smallest subnormal
      (sign + 1, if x.neg then .below else .above)
    else
      -- round to p bits, ties to even
      let r := set { new with prec := p.toNat } x
      let e := r.exp - 1
      if r.form = .inf ∨ e > emax then (sign + infBits, if x.neg then .below else .above)
      else if e < emin then
        -- subnormal: r = m * 2^(emin - mbits)
        let p : Int := mbits + 1 - emin + e
        let m := (r.mant <<< p.toNat) >>> bitLen r.mant
        (sign + m, r.acc)
      else
        let m := (r.mant <<< (mbits + 1)) >>> bitLen r.mant
        (sign + (e + bias).toNat * 2 ^ mbits + m % 2 ^ mbits, r.acc)
  | .zero => (sign, .exact)
  | .inf => (sign + infBits, .exact)

/-- `x.Float32()`, the float32 as its bits. -/
def float32 (x : BigFloat) : BitVec 32 × Accuracy :=
  let r := toIEEE 23 8 x
  (BitVec.ofNat 32 r.1, r.2)

/-- `x.Float64()`, the float64 as its bits. -/
def float64 (x : BigFloat) : BitVec 64 × Accuracy :=
  let r := toIEEE 52 11 x
  (BitVec.ofNat 64 r.1, r.2)

end BigFloat
end GoFloat
