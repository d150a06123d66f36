import Verif.Model.Ftoa
import Verif.Model.Binary128
import Verif.Model.Float80x86
/-
Second model of the functions of /repo that compute with Go's `int`, with its size taken seriously.

In the other files `int` is an unbounded integer. Here it has `W` bits, 32 or 64, and every `int` operation
wraps around: `a + b` is `wrap W (a + b)`. Everything else is as in the other files, whose comments apply. Not
wrapped are loop counters and lengths (`i++`, `w--`, `nd`) that stay between -1 and the size of a buffer of at most
800 bytes, and constant expressions of the source, which the compiler evaluates without overflow.
-/
namespace GoFloat

/-- The `int` of `W` bits that is congruent to `i` modulo `2^W`: the value of an `int` operation with the
mathematical result `i`. -/
def wrap (W : Nat) (i : Int) : Int := i.bmod (2 ^ W)

/-- The largest `int`. -/
def maxInt (W : Nat) : Int := 2 ^ (W - 1) - 1

/-- The smallest `int`. -/
def minInt (W : Nat) : Int := -2 ^ (W - 1)

/-- `uint(i)` for an `int` of `W` bits -/
def uintI (W : Nat) (i : Int) : Nat := (i % 2 ^ W).toNat

namespace Strconv

/-- decimal.go:110-161: `rightShift(a, k)`; line 131: `a.dp -= r - 1` -/
def rightShiftI (W : Nat) (a : Decimal) (k : Nat) : Go Decimal := do
  match ← rsLead W k a.d 0 0 with
  | none => return { a with d := [] }
  | some (n, r, rest) =>
    let dp := wrap W (a.dp - wrap W ((r : Int) - 1))
    let (out1, n) := rsMiddle W k rest n
    let (out2, trunc) ← rsExtra W k (k + 2) n out1.length a.trunc
    return trim { a with d := out1 ++ out2, dp := dp, trunc := trunc }

/-- decimal.go:269-312: `leftShift(a, k)`; lines 272, 276 and 310: `delta--`, `a.nd + delta`, `a.dp += delta` -/
def leftShiftI (W : Nat) (a : Decimal) (k : Nat) : Go Decimal := do
  match leftcheats[k]? with
  | none => throw .index
  | some (delta, cutoff) =>
    let delta := if prefixIsLessThan a.d cutoff then wrap W (delta - 1) else delta
    let (out, n) := lsDigits W k a.d
    let out ← lsExtra (W + 1) n out
    let w : Int := wrap W ((a.nd : Int) + delta) - out.length
    if w < 0 then throw .index
    let all := a.d.take w.toNat ++ out
    let trunc := a.trunc || (all.drop decimalCap).any (· ≠ 0)
    return trim { a with d := all.take decimalCap, dp := wrap W (a.dp + delta), trunc := trunc }

/-- decimal.go:319-324: `for k > maxShift { ...; k -= maxShift }; leftShift(a, uint(k))`; `f` is fuel -/
def shiftLeftLoopI (W : Nat) : Nat → Decimal → Int → Go Decimal
  | 0, _, _ => .error .diverge
  | f + 1, a, k =>
    if k > maxShift W then do shiftLeftLoopI W f (← leftShiftI W a (maxShift W)) (wrap W (k - maxShift W))
    else leftShiftI W a (uintI W k)

/-- decimal.go:325-330: `for k < -maxShift { ...; k += maxShift }; rightShift(a, uint(-k))`; `f` is fuel -/
def shiftRightLoopI (W : Nat) : Nat → Decimal → Int → Go Decimal
  | 0, _, _ => .error .diverge
  | f + 1, a, k =>
    if k < -(maxShift W : Int) then do
      shiftRightLoopI W f (← rightShiftI W a (maxShift W)) (wrap W (k + maxShift W))
    else rightShiftI W a (uintI W (wrap W (-k)))

/-- decimal.go:315-332: `(*decimal).Shift` -/
def Decimal.shiftI (W : Nat) (a : Decimal) (k : Int) : Go Decimal :=
  if a.nd = 0 then .ok a
  else if 0 < k then shiftLeftLoopI W (k.toNat + 1) a k
  else if k < 0 then shiftRightLoopI W ((-k).toNat + 1) a k
  else .ok a

/-- decimal.go:375-395: `(*decimal).RoundUp`; line 394: `a.dp++` -/
def Decimal.roundUpI (W : Nat) (a : Decimal) (nd : Int) : Decimal :=
  if nd < 0 ∨ nd ≥ a.nd then a
  else
    match roundUpDigits (a.d.take nd.toNat) with
    | some d => { a with d := d }
    | none => { a with d := [1], dp := wrap W (a.dp + 1) }

/-- decimal.go:354-363: `(*decimal).Round` (`shouldRoundUp` and `RoundDown` compute with indices below `a.nd` only) -/
def Decimal.roundI (W : Nat) (a : Decimal) (nd : Int) : Decimal :=
  if nd < 0 ∨ nd ≥ a.nd then a
  else if shouldRoundUp a nd then a.roundUpI W nd else a.roundDown nd

/-- ftoa.go:301-334: the loop of `roundShortest` -/
def shortestLoopI (W : Nat) (d lower upper : Decimal) (inclusive : Bool) : Nat → Nat → Decimal
  | 0, _ => d
  | n + 1, i =>
    let l := lower.d.getD i 0
    let m := d.d.getD i 0
    let u := upper.d.getD i 0
    let okdown : Bool := l ≠ m || inclusive && i + 1 = lower.nd
    let okup : Bool := m ≠ u && (inclusive || m + 1 < u || i + 1 < upper.nd)
    if okdown && okup then d.roundI W (i + 1)
    else if okdown then d.roundDown (i + 1)
    else if okup then d.roundUpI W (i + 1)
    else shortestLoopI W d lower upper inclusive n (i + 1)

/-- ftoa.go:241-335: `roundShortest(d, mant, exp, flt)` -/
def roundShortestI (W : Nat) (d : Decimal) (mant : BitVec 64) (exp : Int) (flt : FloatInfo) : Go Decimal := do
  if mant = 0 then return { d with d := [] }
  let minexp := wrap W (flt.bias + 1)
  if exp > minexp ∧ wrap W (332 * wrap W (d.dp - d.nd)) ≥ wrap W (100 * wrap W (exp - flt.mantbits)) then return d
  let upper ← (Decimal.new.assign (mant * 2 + 1)).shiftI W (wrap W (wrap W (exp - flt.mantbits) - 1))
  let (mantlo, explo) :=
    if mant > 1 <<< flt.mantbits ∨ exp = minexp then (mant - 1, exp) else (mant * 2 - 1, wrap W (exp - 1))
  let lower ← (Decimal.new.assign (mantlo * 2 + 1)).shiftI W (wrap W (wrap W (explo - flt.mantbits) - 1))
  let inclusive := mant % 2 = 0
  return shortestLoopI W d lower upper inclusive d.nd 0

/-- ftoa.go:344-396: `fmtE`, the text appended to `dst`. For `prec = maxInt W` the loop of lines 366-368,
`for ; i <= prec; i++`, would not end; the model has `prec` zeros at most. -/
def fmtEI (W : Nat) (neg : Bool) (d : DecimalSlice) (prec : Int) (fmt : Char) : Text :=
  let sign := if neg then ['-'] else []
  let first := [byteChar (if d.nd ≠ 0 then d.d.getD 0 48 else 48)]
  let more :=
    if prec > 0 then
      let m : Int := min d.nd (wrap W (prec + 1))
      let mid := if 1 < m then ((d.d.take m.toNat).drop 1).map byteChar else []
      let i : Int := if 1 < m then m else 1
      '.' :: mid ++ List.replicate (prec + 1 - i).toNat '0'
    else []
  let exp : Int := if d.nd = 0 then 0 else wrap W (d.dp - 1)
  let ch := if exp < 0 then '-' else '+'
  let exp := if exp < 0 then wrap W (-exp) else exp
  let e := exp.natAbs
  let expText :=
    if e < 10 then ['0', byteChar (e + 48)]
    else if e < 100 then [byteChar (e / 10 + 48), byteChar (e % 10 + 48)]
    else [byteChar ((e / 100 % 256 + 48) % 256), byteChar (e / 10 % 256 % 10 + 48), byteChar (e % 10 + 48)]
  sign ++ first ++ more ++ [fmt, ch] ++ expText

/-- ftoa.go:399-429: `fmtF`, the text appended to `dst` -/
def fmtFI (W : Nat) (neg : Bool) (d : DecimalSlice) (prec : Int) : Text :=
  let sign := if neg then ['-'] else []
  let int :=
    if d.dp > 0 then
      let m : Int := min d.nd d.dp
      (d.d.take m.toNat).map byteChar ++ List.replicate (d.dp - m).toNat '0'
    else ['0']
  let frac :=
    if prec > 0 then
      '.' :: (List.range prec.toNat).map (fun i : Nat =>
        let j := wrap W (d.dp + i)
        byteChar (if 0 ≤ j ∧ j < d.nd then d.d.getD j.toNat 48 else 48))
    else []
  sign ++ int ++ frac

/-- ftoa.go:432-452: `fmtB`, the text appended to `dst` -/
def fmtBI (W : Nat) (neg : Bool) (mant : BitVec 64) (exp : Int) (flt : FloatInfo) : Go Text := do
  let sign := if neg then ['-'] else []
  let m ← formatBits W mant 10 false
  let exp := wrap W (exp - flt.mantbits)
  let plus := if exp ≥ 0 then ['+'] else []
  let e ← formatBits W (BitVec.ofInt 64 exp) 10 (exp < 0)
  return sign ++ m ++ ['p'] ++ plus ++ e

/-- ftoa.go:204-237: `formatDigits`, the text appended to `dst` -/
def formatDigitsI (W : Nat) (shortest neg : Bool) (digs : DecimalSlice) (prec : Int) (fmt : Char) : Text :=
  if fmt = 'e' ∨ fmt = 'E' then fmtEI W neg digs prec fmt
  else if fmt = 'f' then fmtFI W neg digs prec
  else if fmt = 'g' ∨ fmt = 'G' then
    let eprec := if prec > digs.nd ∧ (digs.nd : Int) ≥ digs.dp then (digs.nd : Int) else prec
    let eprec := if shortest then 6 else eprec
    let exp := wrap W (digs.dp - 1)
    if exp < -4 ∨ exp ≥ eprec then
      let prec := if prec > digs.nd then (digs.nd : Int) else prec
      fmtEI W neg digs (wrap W (prec - 1)) (Char.ofNat (fmt.toNat + 101 - 103))
    else
      let prec := if prec > digs.dp then (digs.nd : Int) else prec
      fmtFI W neg digs (max (wrap W (prec - digs.dp)) 0)
  else ['%', fmt]

/-- ftoa.go:168-202: `bigFtoa`, the text appended to `dst` -/
def bigFtoaI (W : Nat) (prec : Int) (fmt : Char) (neg : Bool) (mant : BitVec 64) (exp : Int) (flt : FloatInfo) :
    Go Text := do
  let d := Decimal.new.assign mant
  let d ← d.shiftI W (wrap W (exp - flt.mantbits))
  if prec < 0 then
    let d ← roundShortestI W d mant exp flt
    let digs : DecimalSlice := ⟨d.d.map (· + 48), d.dp, false⟩
    let prec : Int :=
      if fmt = 'e' ∨ fmt = 'E' then (digs.nd : Int) - 1
      else if fmt = 'f' then max (wrap W (digs.nd - digs.dp)) 0
      else if fmt = 'g' ∨ fmt = 'G' then digs.nd
      else prec
    return formatDigitsI W true neg digs prec fmt
  else
    let prec : Int := if (fmt = 'g' ∨ fmt = 'G') ∧ prec = 0 then 1 else prec
    let d :=
      if fmt = 'e' ∨ fmt = 'E' then d.roundI W (wrap W (prec + 1))
      else if fmt = 'f' then d.roundI W (wrap W (d.dp + prec))
      else if fmt = 'g' ∨ fmt = 'G' then d.roundI W prec
      else d
    return formatDigitsI W false neg ⟨d.d.map (· + 48), d.dp, false⟩ prec fmt

/-- extfloat.go:203-212: `Normalize` -/
def ExtFloat.normalizeI (W : Nat) (f : ExtFloat) : ExtFloat × Nat :=
  if f.mant = 0 then (f, 0)
  else
    let shift := 64 - bitLen f.mant.toNat
    ({ f with mant := f.mant <<< shift, exp := wrap W (f.exp - shift) }, shift)

/-- extfloat.go:216-232: `Multiply`; line 231: `f.exp = f.exp + g.exp + 64` -/
def ExtFloat.multiplyI (W : Nat) (f g : ExtFloat) : ExtFloat :=
  { f.multiply g with exp := wrap W (wrap W (f.exp + g.exp) + 64) }

/-- extfloat.go:180-199: `AssignComputeBounds`; returns the new `f`, `lower`, `upper` -/
def assignComputeBoundsI (W : Nat) (mant : BitVec 64) (exp : Int) (neg : Bool) (flt : FloatInfo) :
    ExtFloat × ExtFloat × ExtFloat :=
  let fexp := wrap W (exp - flt.mantbits)
  let f : ExtFloat := ⟨mant, fexp, neg⟩
  let shift := uintI W (wrap W (-fexp))
  if fexp ≤ 0 ∧ mant = (mant >>> shift) <<< shift then
    let f : ExtFloat := ⟨mant >>> shift, 0, neg⟩
    (f, f, f)
  else
    let expBiased := wrap W (exp - flt.bias)
    let upper : ExtFloat := ⟨2 * mant + 1, wrap W (fexp - 1), neg⟩
    let lower : ExtFloat :=
      if mant ≠ 1 <<< flt.mantbits ∨ expBiased = 1 then ⟨2 * mant - 1, wrap W (fexp - 1), neg⟩
      else ⟨4 * mant - 1, wrap W (fexp - 2), neg⟩
    (f, lower, upper)

/-- extfloat.go:330-340: the search loop of `frexp10`; `f` is fuel -/
def frexp10LoopI (W : Nat) (fexp : Int) : Nat → Int → Go Int
  | 0, _ => .error .diverge
  | f + 1, i => do
    let exp := wrap W (wrap W (fexp + (← tableAt powersOfTen i).exp) + 64)
    if exp < -60 then frexp10LoopI W fexp f (wrap W (i + 1))
    else if exp > -32 then frexp10LoopI W fexp f (wrap W (i - 1))
    else return i

/-- extfloat.go:317-346: `frexp10`; the new `f`, `exp10` and `index` -/
def ExtFloat.frexp10I (W : Nat) (f : ExtFloat) : Go (ExtFloat × Int × Int) := do
  let approxExp10 := (wrap W (wrap W (-46 - f.exp) * 28)).tdiv 93
  let i := (wrap W (approxExp10 - firstPowerOfTen)).tdiv stepPowerOfTen
  let i ← frexp10LoopI W f.exp 256 i
  let f := f.multiplyI W (← tableAt powersOfTen i)
  return (f, wrap W (-wrap W (firstPowerOfTen + wrap W (i * stepPowerOfTen))), i)

/-- extfloat.go:349-354: `frexp10Many`; the new `a`, `b`, `c`, and `exp10` -/
def frexp10ManyI (W : Nat) (a b c : ExtFloat) : Go (ExtFloat × ExtFloat × ExtFloat × Int) := do
  let (c, exp10, i) ← c.frexp10I W
  let a := a.multiplyI W (← tableAt powersOfTen i)
  let b := b.multiplyI W (← tableAt powersOfTen i)
  return (a, b, c, exp10)

/-- extfloat.go:477-507: `adjustLastDigitFixed`; line 498: `d.dp++` -/
def adjustLastDigitFixedI (W : Nat) (d : DecimalSlice) (num den : BitVec 64) (shift : Nat) (ε : BitVec 64) :
    Go (Option DecimalSlice) := do
  if num > den <<< shift then throw .internal
  if 2 * ε > den <<< shift then throw .internal
  if 2 * (num + ε) < den <<< shift then return some d
  if 2 * (num - ε) > den <<< shift then
    let rest := (d.d.reverse.dropWhile (· = 57)).reverse
    match rest.getLast? with
    | none => return some { d with d := [49], dp := wrap W (d.dp + 1) }
    | some c => return some { d with d := rest.dropLast ++ [(c + 1) % 256] }
  return none

/-- extfloat.go:359-467: `FixedDecimal(d, n)` -/
def ExtFloat.fixedDecimalI (W : Nat) (f : ExtFloat) (n : Int) : Go (Option DecimalSlice) := do
  if f.mant = 0 then return some ⟨[], 0, f.neg⟩
  if n = 0 then throw .internal
  let f := (f.normalizeI W).1
  let (f, exp10, _) ← f.frexp10I W
  let shift := uintI W (wrap W (-f.exp))
  let integer : BitVec 32 := (f.mant >>> shift).setWidth 32
  let fraction := f.mant - (integer.setWidth 64) <<< shift
  let needed := n
  let integerDigits := countDigits integer 20 0 1
  let rest := integer
  let (pow10, integer, rest) ←
    if (integerDigits : Int) > needed then do
      let pow10 ← tableAt uint64pow10 (wrap W (integerDigits - needed))
      let p32 : BitVec 32 := pow10.setWidth 32
      if p32 = 0 then throw .arith
      let q := integer / p32
      pure (pow10, q, rest - q * p32)
    else pure ((1 : BitVec 64), integer, (0 : BitVec 32))
  let ds := (digitsOf 10 integer.toNat).map (· + 48)
  if ds.length > 24 then throw .index
  let d : DecimalSlice := ⟨ds, wrap W (integerDigits + exp10), false⟩
  let needed := wrap W (needed - ds.length)
  let r ←
    if needed > 0 then do
      if rest ≠ 0 ∨ pow10 ≠ 1 then throw .internal
      fixedLoop shift needed.toNat ds fraction 1
    else pure (some (ds, fraction, (1 : BitVec 64)))
  match r with
  | none => return none
  | some (ds, fraction, ε) =>
    match ← adjustLastDigitFixedI W { d with d := ds } ((rest.setWidth 64) <<< shift ||| fraction) pow10 shift ε with
    | none => return none
    | some d => return some { d with d := trimFixed d.d }

/-- extfloat.go:581-595: the digits of the integral part -/
def shortestIntI (W : Nat) (neg : Bool) (exp10 : Int) (integerDigits shift : Nat)
    (fraction allowance targetDiff : BitVec 64) : Nat → List Nat → BitVec 32 →
    Go (Option DecimalSlice ⊕ List Nat)
  | 0, d, _ => .ok (.inr d)
  | k + 1, d, integer => do
    let pow ← tableAt uint64pow10 k
    let p32 : BitVec 32 := pow.setWidth 32
    if p32 = 0 then throw .arith
    let digit := integer / p32
    let d ← putByte 32 d ((digit.toNat + 48) % 256)
    let integer := integer - digit * p32
    let currentDiff := (integer.setWidth 64) <<< shift + fraction
    if currentDiff < allowance then
      return .inl (← adjustLastDigit ⟨d, wrap W (integerDigits + exp10), neg⟩ currentDiff targetDiff allowance
        (pow <<< shift) 2)
    shortestIntI W neg exp10 integerDigits shift fraction allowance targetDiff k d integer

/-- extfloat.go:513-620: `ShortestDecimal(d, lower, upper)` (the digit of line 606 is below 10, so that its
conversion to `int` and back changes nothing) -/
def ExtFloat.shortestDecimalI (W : Nat) (f lower upper : ExtFloat) : Go (Option DecimalSlice) := do
  if f.mant = 0 then return some ⟨[], 0, f.neg⟩
  if f.exp = 0 ∧ lower = f ∧ lower = upper then
    let ds := digitsOf 10 f.mant.toNat
    let t := (ds.reverse.dropWhile (· = 0)).reverse
    return some ⟨t.map (· + 48), if t.length = 0 then 0 else ds.length, f.neg⟩
  let upper := (upper.normalizeI W).1
  let f :=
    if f.exp > upper.exp then
      { f with mant := f.mant <<< uintI W (wrap W (f.exp - upper.exp)), exp := upper.exp }
    else f
  let lower :=
    if lower.exp > upper.exp then
      { lower with mant := lower.mant <<< uintI W (wrap W (lower.exp - upper.exp)), exp := upper.exp }
    else lower
  let (lower, f, upper, exp10) ← frexp10ManyI W lower f upper
  let upper : ExtFloat := { upper with mant := upper.mant + 1 }
  let lower : ExtFloat := { lower with mant := lower.mant - 1 }
  let shift := uintI W (wrap W (-upper.exp))
  let integer : BitVec 32 := (upper.mant >>> shift).setWidth 32
  let fraction := upper.mant - (integer.setWidth 64) <<< shift
  let allowance := upper.mant - lower.mant
  let targetDiff := upper.mant - f.mant
  let integerDigits := countDigits integer 20 0 1
  match ← shortestIntI W f.neg exp10 integerDigits shift fraction allowance targetDiff integerDigits [] integer with
  | .inl r => return r
  | .inr d => shortestFrac f.neg (wrap W (d.length + exp10)) shift allowance targetDiff 33 d fraction 1

/-- ftoa.go:109-165: the part of `genericFtoa` after the bits have been taken apart -/
def ftoaFiniteI (W : Nat) (optimize : Bool) (fmt : Char) (prec : Int) (neg : Bool) (mant : BitVec 64) (exp : Int)
    (flt : FloatInfo) : Go Text := do
  if fmt = 'b' then return (← fmtBI W neg mant exp flt)
  if !optimize then return (← bigFtoaI W prec fmt neg mant exp flt)
  if prec < 0 then
    let (f, lower, upper) := assignComputeBoundsI W mant exp neg flt
    match ← f.shortestDecimalI W lower upper with
    | none => bigFtoaI W prec fmt neg mant exp flt
    | some digs =>
      let prec : Int :=
        if fmt = 'e' ∨ fmt = 'E' then max ((digs.nd : Int) - 1) 0
        else if fmt = 'f' then max (wrap W (digs.nd - digs.dp)) 0
        else if fmt = 'g' ∨ fmt = 'G' then digs.nd
        else prec
      return formatDigitsI W true neg digs prec fmt
  else if fmt ≠ 'f' then
    let prec : Int := if (fmt = 'g' ∨ fmt = 'G') ∧ prec = 0 then 1 else prec
    let digits : Int := if fmt = 'e' ∨ fmt = 'E' then wrap W (prec + 1) else prec
    if digits ≤ 15 then
      match ← ExtFloat.fixedDecimalI W ⟨mant, wrap W (exp - flt.mantbits), neg⟩ digits with
      | none => bigFtoaI W prec fmt neg mant exp flt
      | some digs => return formatDigitsI W false neg digs prec fmt
    else bigFtoaI W prec fmt neg mant exp flt
  else bigFtoaI W prec fmt neg mant exp flt

/-- ftoa.go:81-107 and 109-165: `genericFtoa` once `bits` and `flt` are known; line 82:
`int(bits>>flt.mantbits) & (1<<flt.expbits - 1)`, line 107: `exp += flt.bias` -/
def ftoaBitsI (W : Nat) (optimize : Bool) (bits : BitVec 64) (flt : FloatInfo) (fmt : Char) (prec : Int) : Go Text := do
  let neg : Bool := bits >>> (flt.expbits + flt.mantbits) ≠ 0
  let exp : Int := ((bits >>> flt.mantbits).setWidth W &&& (1 <<< flt.expbits - 1)).toInt
  let mant := bits &&& (1 <<< flt.mantbits - 1)
  if exp = 2 ^ flt.expbits - 1 then
    return if mant ≠ 0 then ['N', 'a', 'N'] else if neg then ['-', 'I', 'n', 'f'] else ['+', 'I', 'n', 'f']
  let (exp, mant) := if exp = 0 then (exp + 1, mant) else (exp, mant ||| 1 <<< flt.mantbits)
  ftoaFiniteI W optimize fmt prec neg mant (wrap W (exp + flt.bias)) flt

end Strconv

namespace Binary16

/-- binary16.go:87-162: `NewFromBig`; line 118: `exp := exponent - 1 + bias` -/
def newFromBigI (W : Nat) (x : BigFloat) : Go (Float × Accuracy) := do
  let zero ← newFloat 0
  if x.isInf then
    return (if x.signbit then NegInf else Inf, .exact)
  if x.cmp zero = .eq then
    return (if x.signbit then NegZero else Zero, .exact)
  let bits : BitVec 16 := if x.signbit then 0x8000 else 0
  let (exponent, mant) := x.mantExp
  let exp : Int := wrap W (wrap W (exponent - 1) + bias)
  if exp ≤ 0 then
    let (exp, acc) :=
      if exp ≤ -((precision : Int) - 1) then ((precision : Int) - 1, Accuracy.below) else (exp, Accuracy.exact)
    let mant := mant.setMantExpSelf (wrap W (wrap W (exp + precision) - 1))
    let mant := if mant.signbit then mant.negSelf else mant
    let mantissa := mant.uint64.1
    let bits := bits ||| (mantissa &&& 0x7FF).setWidth 16
    return (⟨bits⟩, acc)
  let acc : Accuracy := if BitVec.ofInt W exp &&& ~~~0x1F != 0 then .above else .exact
  let bits := bits ||| (BitVec.ofInt W exp &&& 0x1F).setWidth 16 <<< 10
  let mant := if mant.signbit then mant.negSelf else mant
  let mant := mant.setMantExpSelf precision
  let acc := if !mant.isInt then .below else acc
  let mantissa := mant.uint64.1
  let mantissa := mantissa &&& ~~~0x400
  let acc := if acc = .exact ∧ mantissa &&& ~~~0x7FF ≠ 0 then .below else acc
  let mantissa := mantissa &&& 0x7FF
  let bits := bits ||| mantissa.setWidth 16
  return (⟨bits⟩, acc)

/-- binary16.go:67-83: `NewFromFloat64` -/
def newFromFloat64I (W : Nat) (x : F64) : Go (Float × Accuracy) := do
  if F64.isNaN x then
    return (if F64.signbit x then NegNaN else NaN, .exact)
  let y ← newFloat x
  let y := y.setPrec precision
  let y := y.setMode .toNearestEven
  newFromBigI W y

end Binary16

namespace Binary128

/-- binary128.go:88-186: `NewFromBig`; line 119: `exp := exponent - 1 + bias` -/
def newFromBigI (W : Nat) (x : BigFloat) : Go (Float × Accuracy) := do
  let zero ← newFloat 0
  let zero := zero.setPrec precision
  if x.isInf then
    return (if x.signbit then NegInf else Inf, .exact)
  if x.cmp zero = .eq then
    return (if x.signbit then NegZero else Zero, .exact)
  let a : BitVec 64 := if x.signbit then 0x8000000000000000 else 0
  let (exponent, mant) := x.mantExp
  let exp : Int := wrap W (wrap W (exponent - 1) + bias)
  if exp ≤ 0 then
    let (exp, acc) :=
      if exp ≤ -((precision : Int) - 1) then ((precision : Int) - 1, Accuracy.below) else (exp, Accuracy.exact)
    let mant := mant.setMantExpSelf (wrap W (wrap W (exp + precision) - 1))
    let mant := if mant.signbit then mant.negSelf else mant
    let mantissa := mant.intNonneg
    let bigA := (mantissa &&& maskA) >>> 64
    let bigB := mantissa &&& maskB
    let a := a ||| (BitVec.ofNat 64 bigA &&& 0x0000FFFFFFFFFFFF)
    let b := BitVec.ofNat 64 bigB
    return (⟨a, b⟩, acc)
  let acc : Accuracy := if BitVec.ofInt W exp &&& ~~~0x7FFF != 0 then .above else .exact
  let a := a ||| ((BitVec.ofInt W exp &&& 0x7FFF).setWidth 64) <<< 48
  let mant := if mant.signbit then mant.negSelf else mant
  let mant := mant.setMantExpSelf precision
  let acc := if !mant.isInt then .below else acc
  let mantissa := mant.intNonneg
  let mantissa := if mantissa.testBit 112 then mantissa - 2 ^ 112 else mantissa
  let bigA := (mantissa &&& maskA) >>> 64
  let bigB := mantissa &&& maskB
  let acc := if acc = .exact ∧ BitVec.ofNat 64 bigA &&& ~~~0x0000FFFFFFFFFFFF ≠ 0 then .below else acc
  let a := a ||| (BitVec.ofNat 64 bigA &&& 0x0000FFFFFFFFFFFF)
  let b := BitVec.ofNat 64 bigB
  return (⟨a, b⟩, acc)

/-- binary128.go:68-84: `NewFromFloat64` -/
def newFromFloat64I (W : Nat) (x : F64) : Go (Float × Accuracy) := do
  if F64.isNaN x then
    return (if F64.signbit x then NegNaN else NaN, .exact)
  let y ← newFloat x
  let y := y.setPrec precision
  let y := y.setMode .toNearestEven
  newFromBigI W y

/-- binary128.go:227-280: `Big`; `f.Exp()` depends on the size of `int` (line 236, `exponent := exp - bias`, does not overflow) -/
def Float.bigI (W : Nat) (f : Float) : Go (BigFloat × Bool) := f.bigWith (f.expW W)

/-- binary128.go:198-207: `Float32` -/
def Float.float32I (W : Nat) (f : Float) : Go (F32 × Accuracy) := do
  let (x, nan) ← f.bigI W
  if nan then
    if x.signbit then return (f64to32 F64.nan.neg, .exact)
    return (f64to32 F64.nan, .exact)
  return x.float32

/-- binary128.go:214-223: `Float64` -/
def Float.float64I (W : Nat) (f : Float) : Go (F64 × Accuracy) := do
  let (x, nan) ← f.bigI W
  if nan then
    if x.signbit then return (F64.nan.neg, .exact)
    return (F64.nan, .exact)
  return x.float64

/-- binary128.go:58-64: `NewFromFloat32` -/
def newFromFloat32I (W : Nat) (x : F32) : Go (Float × Accuracy) := do
  let (f, acc) ← newFromFloat64I W (f32to64 x)
  if acc = .exact then
    let (_, acc) ← f.float32I W
    return (f, acc)
  return (f, acc)

end Binary128

namespace Float80x86

/-- float80x86.go:97-183: `NewFromBig`; line 142: `exp := exponent - 1 + bias` -/
def newFromBigI (W : Nat) (x : BigFloat) : Go (Float × Accuracy) := do
  let zero ← newFloat 0
  if x.isInf then
    return (if x.signbit then NegInf else Inf, .exact)
  if x.cmp zero = .eq then
    return (if x.signbit then NegZero else Zero, .exact)
  let se : BitVec 16 := if x.signbit then 0x8000 else 0
  let m : BitVec 64 := 0
  let (exponent, mant) := x.mantExp
  let exp : Int := wrap W (wrap W (exponent - 1) + bias)
  if exp ≤ 0 then
    let (exp, acc) :=
      if exp ≤ -((precision : Int) - 1) then ((precision : Int) - 1, Accuracy.below) else (exp, Accuracy.exact)
    let mant := mant.setMantExpSelf (wrap W (wrap W (exp + precision) - 1))
    let mant := if mant.signbit then mant.negSelf else mant
    let v := mant.uint64.1
    let m := m ||| (v &&& 0x7FFFFFFFFFFFFFFF)
    return (⟨se, m⟩, acc)
  let acc : Accuracy := if BitVec.ofInt W exp &&& ~~~0x7FFF != 0 then .above else .exact
  let se := se ||| (BitVec.ofInt W exp &&& 0x7FFF).setWidth 16
  let mant := if mant.signbit then mant.negSelf else mant
  let mant := mant.setMantExpSelf precision
  let acc := if !mant.isInt then .below else acc
  let (mantissa, acc2) := mant.uint64
  let acc := if acc = .exact then acc2 else acc
  let m := m ||| mantissa
  return (⟨se, m⟩, acc)

/-- float80x86.go:71-93: `NewFromFloat64` -/
def newFromFloat64I (W : Nat) (x : F64) : Go (Float × Accuracy) := do
  if F64.isNaN x then
    return (if F64.signbit x then NegNaN else NaN, .exact)
  let y ← newFloat x
  let y := y.setPrec precision
  let y := y.setMode .toNearestEven
  newFromBigI W y

end Float80x86

namespace Strconv

/-- ftoa.go:62-165: `genericFtoa`, the text appended to `dst` -/
def genericFtoaI (W : Nat) (optimize : Bool) (val : F64) (fmt : Char) (prec bitSize : Int) : Go Text := do
  if bitSize = 16 then
    let (f, _) ← Binary16.newFromFloat64I W val
    ftoaBitsI W optimize (f.bits.setWidth 64) float16info fmt prec
  else if bitSize = 32 then ftoaBitsI W optimize ((f64to32 val).setWidth 64) float32info fmt prec
  else if bitSize = 64 then ftoaBitsI W optimize val float64info fmt prec
  else throw .illegalBitSize

/-- `make([]byte, 0, cap)` on a machine that can allocate `maxAlloc` bytes: panics for a negative or too large
capacity (`runtime.makeslice`) -/
def makeBytes (maxAlloc : Nat) (cap : Int) : Go Text :=
  if cap < 0 ∨ cap > maxAlloc then .error .makeslice else .ok []

/-- ftoa.go:52-54: `FormatFloat`, with the allocation of the buffer; `append` grows the buffer if it is too small -/
def formatFloatI (W maxAlloc : Nat) (f : F64) (fmt : Char) (prec bitSize : Int) : Go Text := do
  let dst ← makeBytes maxAlloc (max (wrap W (prec + 4)) 24)
  return dst ++ (← genericFtoaI W true f fmt prec bitSize)

/-- ftoa.go:58-60: `AppendFloat` -/
def appendFloatI (W : Nat) (dst : Text) (f : F64) (fmt : Char) (prec bitSize : Int) : Go Text := do
  return dst ++ (← genericFtoaI W true f fmt prec bitSize)

end Strconv
end GoFloat
