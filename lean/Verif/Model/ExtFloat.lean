import Verif.Model.Text
/-
Model of /repo/internal/strconv/extfloat.go, function by function.

Methods that change their receiver return its new value. `uint64` is `BitVec 64`, `uint32` is `BitVec 32`;
`int` is an unbounded integer (all `int` values here are small). A `decimalSlice` is modelled with the list
of its live bytes `d[0:nd]`; the bytes are numbers below 256 (`'0'` is 48).
-/
namespace GoFloat.Strconv

/-- ftoa.go:22-26: `type floatInfo struct` -/
structure FloatInfo where
  mantbits : Nat
  expbits : Nat
  bias : Int
  deriving DecidableEq, Repr

/-- ftoa.go:28 -/
def float16info : FloatInfo := ⟨10, 5, -15⟩
/-- ftoa.go:29 -/
def float32info : FloatInfo := ⟨23, 8, -127⟩
/-- ftoa.go:30 -/
def float64info : FloatInfo := ⟨52, 11, -1023⟩

/-- ftoa.go:337-341: `type decimalSlice struct` -/
structure DecimalSlice where
  d : List Nat
  dp : Int
  neg : Bool
  deriving DecidableEq, Repr

/-- ftoa.go:339: `nd` -/
def DecimalSlice.nd (s : DecimalSlice) : Nat := s.d.length

/-- extfloat.go:15-19: `type extFloat struct` -/
structure ExtFloat where
  mant : BitVec 64
  exp : Int
  neg : Bool
  deriving DecidableEq, Repr

/-- extfloat.go:24 -/
def firstPowerOfTen : Int := -348
/-- extfloat.go:25 -/
def stepPowerOfTen : Int := 8

/-- extfloat.go:28-37: `smallPowersOfTen` -/
def smallPowersOfTen : List ExtFloat := [
  ⟨1 <<< 63, -63, false⟩,
  ⟨0xa <<< 60, -60, false⟩,
  ⟨0x64 <<< 57, -57, false⟩,
  ⟨0x3e8 <<< 54, -54, false⟩,
  ⟨0x2710 <<< 50, -50, false⟩,
  ⟨0x186a0 <<< 47, -47, false⟩,
  ⟨0xf4240 <<< 44, -44, false⟩,
  ⟨0x989680 <<< 40, -40, false⟩]

/-- extfloat.go:39-127: `powersOfTen` (mantissa, exponent; `neg` is false in every row) -/
def powersOfTen : List ExtFloat := [
  ⟨0xfa8fd5a0081c0288, -1220, false⟩,
  ⟨0xbaaee17fa23ebf76, -1193, false⟩,
  ⟨0x8b16fb203055ac76, -1166, false⟩,
  ⟨0xcf42894a5dce35ea, -1140, false⟩,
  ⟨0x9a6bb0aa55653b2d, -1113, false⟩,
  ⟨0xe61acf033d1a45df, -1087, false⟩,
  ⟨0xab70fe17c79ac6ca, -1060, false⟩,
  ⟨0xff77b1fcbebcdc4f, -1034, false⟩,
  ⟨0xbe5691ef416bd60c, -1007, false⟩,
  ⟨0x8dd01fad907ffc3c, -980, false⟩,
  ⟨0xd3515c2831559a83, -954, false⟩,
  ⟨0x9d71ac8fada6c9b5, -927, false⟩,
  ⟨0xea9c227723ee8bcb, -901, false⟩,
  ⟨0xaecc49914078536d, -874, false⟩,
  ⟨0x823c12795db6ce57, -847, false⟩,
  ⟨0xc21094364dfb5637, -821, false⟩,
  ⟨0x9096ea6f3848984f, -794, false⟩,
  ⟨0xd77485cb25823ac7, -768, false⟩,
  ⟨0xa086cfcd97bf97f4, -741, false⟩,
  ⟨0xef340a98172aace5, -715, false⟩,
  ⟨0xb23867fb2a35b28e, -688, false⟩,
  ⟨0x84c8d4dfd2c63f3b, -661, false⟩,
  ⟨0xc5dd44271ad3cdba, -635, false⟩,
  ⟨0x936b9fcebb25c996, -608, false⟩,
  ⟨0xdbac6c247d62a584, -582, false⟩,
  ⟨0xa3ab66580d5fdaf6, -555, false⟩,
  ⟨0xf3e2f893dec3f126, -529, false⟩,
  ⟨0xb5b5ada8aaff80b8, -502, false⟩,
  ⟨0x87625f056c7c4a8b, -475, false⟩,
  ⟨0xc9bcff6034c13053, -449, false⟩,
  ⟨0x964e858c91ba2655, -422, false⟩,
  ⟨0xdff9772470297ebd, -396, false⟩,
  ⟨0xa6dfbd9fb8e5b88f, -369, false⟩,
  ⟨0xf8a95fcf88747d94, -343, false⟩,
  ⟨0xb94470938fa89bcf, -316, false⟩,
  ⟨0x8a08f0f8bf0f156b, -289, false⟩,
  ⟨0xcdb02555653131b6, -263, false⟩,
  ⟨0x993fe2c6d07b7fac, -236, false⟩,
  ⟨0xe45c10c42a2b3b06, -210, false⟩,
  ⟨0xaa242499697392d3, -183, false⟩,
  ⟨0xfd87b5f28300ca0e, -157, false⟩,
  ⟨0xbce5086492111aeb, -130, false⟩,
  ⟨0x8cbccc096f5088cc, -103, false⟩,
  ⟨0xd1b71758e219652c, -77, false⟩,
  ⟨0x9c40000000000000, -50, false⟩,
  ⟨0xe8d4a51000000000, -24, false⟩,
  ⟨0xad78ebc5ac620000, 3, false⟩,
  ⟨0x813f3978f8940984, 30, false⟩,
  ⟨0xc097ce7bc90715b3, 56, false⟩,
  ⟨0x8f7e32ce7bea5c70, 83, false⟩,
  ⟨0xd5d238a4abe98068, 109, false⟩,
  ⟨0x9f4f2726179a2245, 136, false⟩,
  ⟨0xed63a231d4c4fb27, 162, false⟩,
  ⟨0xb0de65388cc8ada8, 189, false⟩,
  ⟨0x83c7088e1aab65db, 216, false⟩,
  ⟨0xc45d1df942711d9a, 242, false⟩,
  ⟨0x924d692ca61be758, 269, false⟩,
  ⟨0xda01ee641a708dea, 295, false⟩,
  ⟨0xa26da3999aef774a, 322, false⟩,
  ⟨0xf209787bb47d6b85, 348, false⟩,
  ⟨0xb454e4a179dd1877, 375, false⟩,
  ⟨0x865b86925b9bc5c2, 402, false⟩,
  ⟨0xc83553c5c8965d3d, 428, false⟩,
  ⟨0x952ab45cfa97a0b3, 455, false⟩,
  ⟨0xde469fbd99a05fe3, 481, false⟩,
  ⟨0xa59bc234db398c25, 508, false⟩,
  ⟨0xf6c69a72a3989f5c, 534, false⟩,
  ⟨0xb7dcbf5354e9bece, 561, false⟩,
  ⟨0x88fcf317f22241e2, 588, false⟩,
  ⟨0xcc20ce9bd35c78a5, 614, false⟩,
  ⟨0x98165af37b2153df, 641, false⟩,
  ⟨0xe2a0b5dc971f303a, 667, false⟩,
  ⟨0xa8d9d1535ce3b396, 694, false⟩,
  ⟨0xfb9b7cd9a4a7443c, 720, false⟩,
  ⟨0xbb764c4ca7a44410, 747, false⟩,
  ⟨0x8bab8eefb6409c1a, 774, false⟩,
  ⟨0xd01fef10a657842c, 800, false⟩,
  ⟨0x9b10a4e5e9913129, 827, false⟩,
  ⟨0xe7109bfba19c0c9d, 853, false⟩,
  ⟨0xac2820d9623bf429, 880, false⟩,
  ⟨0x80444b5e7aa7cf85, 907, false⟩,
  ⟨0xbf21e44003acdd2d, 933, false⟩,
  ⟨0x8e679c2f5e44ff8f, 960, false⟩,
  ⟨0xd433179d9c8cb841, 986, false⟩,
  ⟨0x9e19db92b4e31ba9, 1013, false⟩,
  ⟨0xeb96bf6ebadf77d9, 1039, false⟩,
  ⟨0xaf87023b9bf0ee6b, 1066, false⟩]

/-- Index into a table, with Go's bounds check. -/
def tableAt {α : Type} (t : List α) (i : Int) : Go α :=
  if i < 0 then .error .index
  else
    match t[i.toNat]? with
    | some x => .ok x
    | none => .error .index

/-- Go's conversion `uint(i)` of an `int` (64 bits; with 32 bits the result is also at least 64 for every
negative `i`, and it is only used as a shift count here). -/
def uintOf (i : Int) : Nat := (i % 2 ^ 64).toNat

/-- extfloat.go:203-212: `Normalize`, the new value and the shift.
`bits.LeadingZeros64(m)` is `64 - bitLen m`. -/
def ExtFloat.normalize (f : ExtFloat) : ExtFloat × Nat :=
  if f.mant = 0 then (f, 0)
  else
    let shift := 64 - bitLen f.mant.toNat
    ({ f with mant := f.mant <<< shift, exp := f.exp - shift }, shift)

/-- `uint64(uint32(x))` -/
def lo32 (x : BitVec 64) : BitVec 64 := (x.setWidth 32).setWidth 64

/-- extfloat.go:216-232: `Multiply` -/
def ExtFloat.multiply (f g : ExtFloat) : ExtFloat :=
  let fhi := f.mant >>> 32
  let flo := lo32 f.mant
  let ghi := g.mant >>> 32
  let glo := lo32 g.mant
  let cross1 := fhi * glo
  let cross2 := flo * ghi
  let mant := fhi * ghi + (cross1 >>> 32) + (cross2 >>> 32)
  let rem := lo32 cross1 + lo32 cross2 + ((flo * glo) >>> 32)
  let rem := rem + 1 <<< 31
  { f with mant := mant + (rem >>> 32), exp := f.exp + g.exp + 64 }

/-- extfloat.go:234-237: `uint64pow10` -/
def uint64pow10 : List (BitVec 64) := [
  1, 10, 100, 1000, 10000, 100000, 1000000, 10000000, 100000000, 1000000000,
  10000000000, 100000000000, 1000000000000, 10000000000000, 100000000000000, 1000000000000000,
  10000000000000000, 100000000000000000, 1000000000000000000, 10000000000000000000]

/-- extfloat.go:132-174: `floatBits`, the results `bits` and `overflow` -/
def ExtFloat.floatBits (f : ExtFloat) (flt : FloatInfo) : BitVec 64 × Bool :=
  let f := f.normalize.1
  let exp := f.exp + 63
  -- exponent too small
  let n := flt.bias + 1 - exp
  let (fmant, exp) :=
    if exp < flt.bias + 1 then (f.mant >>> uintOf n, exp + n) else (f.mant, exp)
  let mant := fmant >>> (63 - flt.mantbits)
  let mant := if fmant &&& (1 <<< (62 - flt.mantbits)) ≠ 0 then mant + 1 else mant
  -- rounding might have added a bit
  let (mant, exp) := if mant = 2 <<< flt.mantbits then (mant >>> 1, exp + 1) else (mant, exp)
  let (mant, exp, overflow) :=
    if exp - flt.bias ≥ 2 ^ flt.expbits - 1 then ((0 : BitVec 64), 2 ^ flt.expbits - 1 + flt.bias, true)
    else if mant &&& (1 <<< flt.mantbits) = 0 then (mant, flt.bias, false)
    else (mant, exp, false)
  let bits := mant &&& (1 <<< flt.mantbits - 1)
  let bits := bits ||| (BitVec.ofInt 64 (exp - flt.bias) &&& (1 <<< flt.expbits - 1)) <<< flt.mantbits
  let bits := if f.neg then bits ||| 1 <<< (flt.mantbits + flt.expbits) else bits
  (bits, overflow)

/-- extfloat.go:180-199: `AssignComputeBounds`; returns the new `f`, `lower`, `upper` -/
def assignComputeBounds (mant : BitVec 64) (exp : Int) (neg : Bool) (flt : FloatInfo) :
    ExtFloat × ExtFloat × ExtFloat :=
  let fexp := exp - flt.mantbits
  let f : ExtFloat := ⟨mant, fexp, neg⟩
  if fexp ≤ 0 ∧ mant = (mant >>> uintOf (-fexp)) <<< uintOf (-fexp) then
    let f : ExtFloat := ⟨mant >>> uintOf (-fexp), 0, neg⟩
    (f, f, f)
  else
    let expBiased := exp - flt.bias
    let upper : ExtFloat := ⟨2 * mant + 1, fexp - 1, neg⟩
    let lower : ExtFloat :=
      if mant ≠ 1 <<< flt.mantbits ∨ expBiased = 1 then ⟨2 * mant - 1, fexp - 1, neg⟩
      else ⟨4 * mant - 1, fexp - 2, neg⟩
    (f, lower, upper)

/-- extfloat.go:259-271: the part of `AssignDecimal` that multiplies by `10^adjExp`; the new `f` and `errors` -/
def assignSmall (f : ExtFloat) (errors adjExp : Int) : Go (ExtFloat × Int) := do
  let p ← tableAt uint64pow10 (19 - adjExp)
  if adjExp < 19 ∧ f.mant < p then do
    let q ← tableAt uint64pow10 adjExp
    return ((ExtFloat.mk (f.mant * q) f.exp f.neg).normalize.1, errors)
  else do
    let g ← tableAt smallPowersOfTen adjExp
    return (f.normalize.1.multiply g, errors + 4)

/-- extfloat.go:273-278: the part of `AssignDecimal` that multiplies by `powersOfTen[i]`; the new `f` and `errors` -/
def assignLarge (f : ExtFloat) (errors i : Int) : Go (ExtFloat × Int) := do
  let e ← tableAt powersOfTen i
  return (f.multiply e, (if errors > 0 then errors + 1 else errors) + 4)

/-- extfloat.go:289-296: the number of bits that rounding discards -/
def assignExtra (fexp : Int) (flt : FloatInfo) : Nat :=
  if fexp ≤ flt.bias - 63 then 63 - flt.mantbits + 1 + (flt.bias - 63 - fexp).toNat else 63 - flt.mantbits

/-- extfloat.go:298-310: the answer of `AssignDecimal`: can the error change the rounding? -/
def assignTest (mant : BitVec 64) (extrabits : Nat) (errors : Int) : Bool :=
  let halfway : BitVec 64 := 1 <<< (extrabits - 1)
  let mantExtra := mant &&& (1 <<< extrabits - 1)
  let errs : BitVec 64 := BitVec.ofInt 64 errors
  if (halfway - errs).toInt < mantExtra.toInt ∧ mantExtra.toInt < (halfway + errs).toInt then false else true

/-- extfloat.go:243-311: `AssignDecimal`; the new `f` and `ok`. The condition at line 259 reads the table
before it compares `adjExp` with 19; `adjExp` is below 8 there, so the order does not matter. -/
def assignDecimal (mantissa : BitVec 64) (exp10 : Int) (neg trunc : Bool) (flt : FloatInfo) :
    Go (ExtFloat × Bool) := do
  let errors : Int := if trunc then 4 else 0
  let f : ExtFloat := ⟨mantissa, 0, neg⟩
  let i := (exp10 - firstPowerOfTen).tdiv stepPowerOfTen
  if exp10 < firstPowerOfTen ∨ i ≥ powersOfTen.length then return (f, false)
  let adjExp := (exp10 - firstPowerOfTen).tmod stepPowerOfTen
  let r ← assignSmall f errors adjExp
  let r ← assignLarge r.1 r.2 i
  let f := r.1.normalize.1
  let errors := r.2 * 2 ^ r.1.normalize.2
  return (f, assignTest f.mant (assignExtra f.exp flt) errors)

/-- extfloat.go:330-340: the search loop of `frexp10`; `f` is fuel -/
def frexp10Loop (fexp : Int) : Nat → Int → Go Int
  | 0, _ => .error .diverge
  | f + 1, i => do
    let exp := fexp + (← tableAt powersOfTen i).exp + 64
    if exp < -60 then frexp10Loop fexp f (i + 1)
    else if exp > -32 then frexp10Loop fexp f (i - 1)
    else return i

/-- extfloat.go:317-346: `frexp10`; the new `f`, `exp10` and `index` -/
def ExtFloat.frexp10 (f : ExtFloat) : Go (ExtFloat × Int × Int) := do
  let approxExp10 := ((-46 - f.exp) * 28).tdiv 93
  let i := (approxExp10 - firstPowerOfTen).tdiv stepPowerOfTen
  let i ← frexp10Loop f.exp 256 i
  let f := f.multiply (← tableAt powersOfTen i)
  return (f, -(firstPowerOfTen + i * stepPowerOfTen), i)

/-- extfloat.go:349-354: `frexp10Many`; the new `a`, `b`, `c`, and `exp10` -/
def frexp10Many (a b c : ExtFloat) : Go (ExtFloat × ExtFloat × ExtFloat × Int) := do
  let (c, exp10, i) ← c.frexp10
  let a := a.multiply (← tableAt powersOfTen i)
  let b := b.multiply (← tableAt powersOfTen i)
  return (a, b, c, exp10)

/-- A store `d[nd] = b` followed by `nd++`, into a slice of `cap` bytes. -/
def putByte (cap : Nat) (d : List Nat) (b : Nat) : Go (List Nat) :=
  if d.length < cap then .ok (d ++ [b]) else .error .index

/-- extfloat.go:382-389, 573-580: the number of decimal digits of `integer`: the first `i < 20` with
`10^i > integer`, or 0; `f` counts down from 20 -/
def countDigits (integer : BitVec 32) : Nat → Nat → BitVec 64 → Nat
  | 0, _, _ => 0
  | f + 1, i, pow => if pow > integer.setWidth 64 then i else countDigits integer f (i + 1) (pow * 10)

/-- extfloat.go:477-507: `adjustLastDigitFixed`; the new `d`, or `none` for the result `false` -/
def adjustLastDigitFixed (d : DecimalSlice) (num den : BitVec 64) (shift : Nat) (ε : BitVec 64) :
    Go (Option DecimalSlice) := do
  if num > den <<< shift then throw .internal
  if 2 * ε > den <<< shift then throw .internal
  if 2 * (num + ε) < den <<< shift then return some d
  if 2 * (num - ε) > den <<< shift then
    -- increment d by 1: drop the trailing nines
    let rest := (d.d.reverse.dropWhile (· = 57)).reverse
    match rest.getLast? with
    | none => return some { d with d := [49], dp := d.dp + 1 }
    | some c => return some { d with d := rest.dropLast ++ [(c + 1) % 256] }
  return none

/-- extfloat.go:424-436: digits of the fractional part; `none` for `return false`; `needed` counts down.
The slice has 24 bytes (ftoa.go:155). Returns the digits, `fraction` and `ε`. -/
def fixedLoop (shift : Nat) : Nat → List Nat → BitVec 64 → BitVec 64 →
    Go (Option (List Nat × BitVec 64 × BitVec 64))
  | 0, d, fraction, ε => .ok (some (d, fraction, ε))
  | needed + 1, d, fraction, ε => do
    let fraction := fraction * 10
    let ε := ε * 10
    if 2 * ε > 1 <<< shift then return none
    let digit := fraction >>> shift
    let d ← putByte 24 d ((digit.toNat + 48) % 256)
    fixedLoop shift needed d (fraction - digit <<< shift) ε

/-- extfloat.go:460-465: trim trailing zeros, but keep a slice of zeros only -/
def trimFixed (d : List Nat) : List Nat :=
  let t := (d.reverse.dropWhile (· = 48)).reverse
  if t = [] then d else t

/-- extfloat.go:359-467: `FixedDecimal(d, n)`; the new `d`, or `none` for the result `false`
(the caller then ignores `d`). `d.neg` keeps its initial value `false`, except for a zero. -/
def ExtFloat.fixedDecimal (f : ExtFloat) (n : Int) : Go (Option DecimalSlice) := do
  if f.mant = 0 then return some ⟨[], 0, f.neg⟩
  if n = 0 then throw .internal
  let f := f.normalize.1
  let (f, exp10, _) ← f.frexp10
  let shift := uintOf (-f.exp)
  let integer : BitVec 32 := (f.mant >>> shift).setWidth 32
  let fraction := f.mant - (integer.setWidth 64) <<< shift
  let needed := n
  let integerDigits := countDigits integer 20 0 1
  let rest := integer
  let (pow10, integer, rest) ←
    if (integerDigits : Int) > needed then do
      let pow10 ← tableAt uint64pow10 (integerDigits - needed)
      let p32 : BitVec 32 := pow10.setWidth 32
      if p32 = 0 then throw .arith
      let q := integer / p32
      pure (pow10, q, rest - q * p32)
    else pure ((1 : BitVec 64), integer, (0 : BitVec 32))
  -- the digits of integer
  let ds := (digitsOf 10 integer.toNat).map (· + 48)
  if ds.length > 24 then throw .index
  let d : DecimalSlice := ⟨ds, integerDigits + exp10, false⟩
  let needed := needed - ds.length
  let r ←
    if needed > 0 then do
      if rest ≠ 0 ∨ pow10 ≠ 1 then throw .internal
      fixedLoop shift needed.toNat ds fraction 1
    else pure (some (ds, fraction, (1 : BitVec 64)))
  match r with
  | none => return none
  | some (ds, fraction, ε) =>
    match ← adjustLastDigitFixed { d with d := ds } ((rest.setWidth 64) <<< shift ||| fraction) pow10 shift ε with
    | none => return none
    | some d => return some { d with d := trimFixed d.d }

/-- extfloat.go:631-634: the loop of `adjustLastDigit`; the last byte and `currentDiff`; `f` is fuel -/
def adjustLoop (targetDiff ulpDecimal ulpBinary : BitVec 64) : Nat → Nat → BitVec 64 → Go (Nat × BitVec 64)
  | 0, _, _ => .error .diverge
  | f + 1, last, currentDiff =>
    if currentDiff + ulpDecimal / 2 + ulpBinary < targetDiff then
      adjustLoop targetDiff ulpDecimal ulpBinary f ((last + 255) % 256) (currentDiff + ulpDecimal)
    else .ok (last, currentDiff)

/-- extfloat.go:626-649: `adjustLastDigit`; the new `d`, or `none` for the result `false` -/
def adjustLastDigit (d : DecimalSlice) (currentDiff targetDiff maxDiff ulpDecimal ulpBinary : BitVec 64) :
    Go (Option DecimalSlice) := do
  if ulpDecimal < 2 * ulpBinary then return none
  match d.d.getLast? with
  | none => throw .index
  | some last =>
    let (last, currentDiff) ← adjustLoop targetDiff ulpDecimal ulpBinary 256 last currentDiff
    if currentDiff + ulpDecimal ≤ targetDiff + ulpDecimal / 2 + ulpBinary then return none
    if currentDiff < ulpBinary ∨ currentDiff > maxDiff - ulpBinary then return none
    let ds := d.d.dropLast ++ [last]
    if ds = [48] then return some { d with d := [], dp := 0 }
    return some { d with d := ds }

/-- extfloat.go:581-595: the digits of the integral part. `.inl r` is the `return` inside the loop,
`.inr (d, integer)` the end of the loop. The slice has 32 bytes (ftoa.go:126). `k` counts the digits left. -/
def shortestInt (neg : Bool) (exp10 : Int) (integerDigits shift : Nat)
    (fraction allowance targetDiff : BitVec 64) : Nat → List Nat → BitVec 32 →
    Go (Option DecimalSlice ⊕ List Nat)
  | 0, d, _ => .ok (.inr d)
  | k + 1, d, integer => do
    let pow ← tableAt uint64pow10 k
    let p32 : BitVec 32 := pow.setWidth 32
    if p32 = 0 then throw .arith
    let digit := integer / p32
    let d ← putByte 32 d ((digit.toNat + 48) % 256)
    let integer := integer - digit * p32
    let currentDiff := (integer.setWidth 64) <<< shift + fraction
    if currentDiff < allowance then
      return .inl (← adjustLastDigit ⟨d, integerDigits + exp10, neg⟩ currentDiff targetDiff allowance (pow <<< shift) 2)
    shortestInt neg exp10 integerDigits shift fraction allowance targetDiff k d integer

/-- extfloat.go:604-619: the digits of the fractional part. The loop stops at the latest when the slice of
32 bytes is full, so 33 rounds of fuel are enough. -/
def shortestFrac (neg : Bool) (dp : Int) (shift : Nat) (allowance targetDiff : BitVec 64) :
    Nat → List Nat → BitVec 64 → BitVec 64 → Go (Option DecimalSlice)
  | 0, _, _, _ => .error .index
  | f + 1, d, fraction, multiplier => do
    let fraction := fraction * 10
    let multiplier := multiplier * 10
    let digit := fraction >>> shift
    let d ← putByte 32 d ((digit.toNat + 48) % 256)
    let fraction := fraction - digit <<< shift
    if fraction < allowance * multiplier then
      adjustLastDigit ⟨d, dp, neg⟩ fraction (targetDiff * multiplier) (allowance * multiplier)
        (1 <<< shift) (multiplier * 2)
    else shortestFrac neg dp shift allowance targetDiff f d fraction multiplier

/-- extfloat.go:513-620: `ShortestDecimal(d, lower, upper)`; the new `d`, or `none` for the result `false`
(the caller then ignores `d`). -/
def ExtFloat.shortestDecimal (f lower upper : ExtFloat) : Go (Option DecimalSlice) := do
  if f.mant = 0 then return some ⟨[], 0, f.neg⟩
  if f.exp = 0 ∧ lower = f ∧ lower = upper then
    -- an exact integer; lines 522-534 write its digits
    let ds := digitsOf 10 f.mant.toNat
    let t := (ds.reverse.dropWhile (· = 0)).reverse
    return some ⟨t.map (· + 48), if t.length = 0 then 0 else ds.length, f.neg⟩
  let upper := upper.normalize.1
  let f := if f.exp > upper.exp then { f with mant := f.mant <<< uintOf (f.exp - upper.exp), exp := upper.exp } else f
  let lower :=
    if lower.exp > upper.exp then { lower with mant := lower.mant <<< uintOf (lower.exp - upper.exp), exp := upper.exp }
    else lower
  let (lower, f, upper, exp10) ← frexp10Many lower f upper
  let upper : ExtFloat := { upper with mant := upper.mant + 1 }
  let lower : ExtFloat := { lower with mant := lower.mant - 1 }
  let shift := uintOf (-upper.exp)
  let integer : BitVec 32 := (upper.mant >>> shift).setWidth 32
  let fraction := upper.mant - (integer.setWidth 64) <<< shift
  let allowance := upper.mant - lower.mant
  let targetDiff := upper.mant - f.mant
  let integerDigits := countDigits integer 20 0 1
  match ← shortestInt f.neg exp10 integerDigits shift fraction allowance targetDiff integerDigits [] integer with
  | .inl r => return r
  | .inr d => shortestFrac f.neg (d.length + exp10) shift allowance targetDiff 33 d fraction 1

end GoFloat.Strconv
