import Verif.Model.Itoa
import Verif.Model.Decimal
import Verif.Model.ExtFloat
import Verif.Model.Binary16
/-
Model of /repo/internal/strconv/ftoa.go, function by function.
A string or byte slice is its list of bytes, each written as the character with that code.
`W` is the size of `uint` in bits (32 or 64).
-/
namespace GoFloat.Strconv

/-- A byte as a character. -/
def byteChar (b : Nat) : Char := Char.ofNat b

/-- ftoa.go:241-335: `roundShortest(d, mant, exp, flt)`, lines 301-334: the loop over the digits of `d`;
`i` is the index, `n` the number of digits left. -/
def shortestLoop (d lower upper : Decimal) (inclusive : Bool) : Nat → Nat → Decimal
  | 0, _ => d
  | n + 1, i =>
    let l := lower.d.getD i 0
    let m := d.d.getD i 0
    let u := upper.d.getD i 0
    let okdown : Bool := l ≠ m || inclusive && i + 1 = lower.nd
    let okup : Bool := m ≠ u && (inclusive || m + 1 < u || i + 1 < upper.nd)
    if okdown && okup then d.round (i + 1)
    else if okdown then d.roundDown (i + 1)
    else if okup then d.roundUp (i + 1)
    else shortestLoop d lower upper inclusive n (i + 1)

/-- ftoa.go:241-335: `roundShortest(d, mant, exp, flt)` -/
def roundShortest (W : Nat) (d : Decimal) (mant : BitVec 64) (exp : Int) (flt : FloatInfo) : Go Decimal := do
  if mant = 0 then return { d with d := [] }
  let minexp := flt.bias + 1
  if exp > minexp ∧ 332 * (d.dp - d.nd) ≥ 100 * (exp - flt.mantbits) then return d
  let upper ← (Decimal.new.assign (mant * 2 + 1)).shift W (exp - flt.mantbits - 1)
  let (mantlo, explo) :=
    if mant > 1 <<< flt.mantbits ∨ exp = minexp then (mant - 1, exp) else (mant * 2 - 1, exp - 1)
  let lower ← (Decimal.new.assign (mantlo * 2 + 1)).shift W (explo - flt.mantbits - 1)
  let inclusive := mant % 2 = 0
  return shortestLoop d lower upper inclusive d.nd 0

/-- ftoa.go:344-396: `fmtE`, the text appended to `dst` -/
def fmtE (neg : Bool) (d : DecimalSlice) (prec : Int) (fmt : Char) : Text :=
  let sign := if neg then ['-'] else []
  let first := [byteChar (if d.nd ≠ 0 then d.d.getD 0 48 else 48)]
  let more :=
    if prec > 0 then
      let m : Int := min d.nd (prec + 1)
      let mid := if 1 < m then ((d.d.take m.toNat).drop 1).map byteChar else []
      let i : Int := if 1 < m then m else 1
      '.' :: mid ++ List.replicate (prec + 1 - i).toNat '0'
    else []
  let exp : Int := if d.nd = 0 then 0 else d.dp - 1
  let ch := if exp < 0 then '-' else '+'
  let e := exp.natAbs
  let expText :=
    if e < 10 then ['0', byteChar (e + 48)]
    else if e < 100 then [byteChar (e / 10 + 48), byteChar (e % 10 + 48)]
    else [byteChar ((e / 100 % 256 + 48) % 256), byteChar (e / 10 % 256 % 10 + 48), byteChar (e % 10 + 48)]
  sign ++ first ++ more ++ [fmt, ch] ++ expText

/-- ftoa.go:399-429: `fmtF`, the text appended to `dst` -/
def fmtF (neg : Bool) (d : DecimalSlice) (prec : Int) : Text :=
  let sign := if neg then ['-'] else []
  let int :=
    if d.dp > 0 then
      let m : Int := min d.nd d.dp
      (d.d.take m.toNat).map byteChar ++ List.replicate (d.dp - m).toNat '0'
    else ['0']
  let frac :=
    if prec > 0 then
      '.' :: (List.range prec.toNat).map (fun i : Nat =>
        let j := d.dp + i
        byteChar (if 0 ≤ j ∧ j < d.nd then d.d.getD j.toNat 48 else 48))
    else []
  sign ++ int ++ frac

/-- ftoa.go:432-452: `fmtB`, the text appended to `dst` -/
def fmtB (W : Nat) (neg : Bool) (mant : BitVec 64) (exp : Int) (flt : FloatInfo) : Go Text := do
  let sign := if neg then ['-'] else []
  let m ← formatBits W mant 10 false
  let exp := exp - flt.mantbits
  let plus := if exp ≥ 0 then ['+'] else []
  let e ← formatBits W (BitVec.ofInt 64 exp) 10 (exp < 0)
  return sign ++ m ++ ['p'] ++ plus ++ e

/-- ftoa.go:204-237: `formatDigits`, the text appended to `dst` -/
def formatDigits (shortest neg : Bool) (digs : DecimalSlice) (prec : Int) (fmt : Char) : Text :=
  if fmt = 'e' ∨ fmt = 'E' then fmtE neg digs prec fmt
  else if fmt = 'f' then fmtF neg digs prec
  else if fmt = 'g' ∨ fmt = 'G' then
    let eprec := if prec > digs.nd ∧ (digs.nd : Int) ≥ digs.dp then (digs.nd : Int) else prec
    let eprec := if shortest then 6 else eprec
    let exp := digs.dp - 1
    if exp < -4 ∨ exp ≥ eprec then
      let prec := if prec > digs.nd then (digs.nd : Int) else prec
      fmtE neg digs (prec - 1) (Char.ofNat (fmt.toNat + 101 - 103))
    else
      let prec := if prec > digs.dp then (digs.nd : Int) else prec
      fmtF neg digs (max (prec - digs.dp) 0)
  else ['%', fmt]

/-- ftoa.go:168-202: `bigFtoa`, the text appended to `dst`; a digit `n` of a `decimal` is the byte `n + 48` -/
def bigFtoa (W : Nat) (prec : Int) (fmt : Char) (neg : Bool) (mant : BitVec 64) (exp : Int) (flt : FloatInfo) :
    Go Text := do
  let d := Decimal.new.assign mant
  let d ← d.shift W (exp - flt.mantbits)
  if prec < 0 then
    let d ← roundShortest W d mant exp flt
    let digs : DecimalSlice := ⟨d.d.map (· + 48), d.dp, false⟩
    let prec : Int :=
      if fmt = 'e' ∨ fmt = 'E' then (digs.nd : Int) - 1
      else if fmt = 'f' then max (digs.nd - digs.dp) 0
      else if fmt = 'g' ∨ fmt = 'G' then digs.nd
      else prec
    return formatDigits true neg digs prec fmt
  else
    let prec : Int := if (fmt = 'g' ∨ fmt = 'G') ∧ prec = 0 then 1 else prec
    let d :=
      if fmt = 'e' ∨ fmt = 'E' then d.round (prec + 1)
      else if fmt = 'f' then d.round (d.dp + prec)
      else if fmt = 'g' ∨ fmt = 'G' then d.round prec
      else d
    return formatDigits false neg ⟨d.d.map (· + 48), d.dp, false⟩ prec fmt

/-- ftoa.go:109-165: the part of `genericFtoa` after the bits have been taken apart. `optimize` is the
package variable of ftoa.go:19 (`true` outside tests). -/
def ftoaFinite (W : Nat) (optimize : Bool) (fmt : Char) (prec : Int) (neg : Bool) (mant : BitVec 64) (exp : Int)
    (flt : FloatInfo) : Go Text := do
  if fmt = 'b' then return (← fmtB W neg mant exp flt)
  if !optimize then return (← bigFtoa W prec fmt neg mant exp flt)
  if prec < 0 then
    let (f, lower, upper) := assignComputeBounds mant exp neg flt
    match ← f.shortestDecimal lower upper with
    | none => bigFtoa W prec fmt neg mant exp flt
    | some digs =>
      let prec : Int :=
        if fmt = 'e' ∨ fmt = 'E' then max ((digs.nd : Int) - 1) 0
        else if fmt = 'f' then max (digs.nd - digs.dp) 0
        else if fmt = 'g' ∨ fmt = 'G' then digs.nd
        else prec
      return formatDigits true neg digs prec fmt
  else if fmt ≠ 'f' then
    let prec : Int := if (fmt = 'g' ∨ fmt = 'G') ∧ prec = 0 then 1 else prec
    let digits : Int := if fmt = 'e' ∨ fmt = 'E' then prec + 1 else prec
    if digits ≤ 15 then
      match ← ExtFloat.fixedDecimal ⟨mant, exp - flt.mantbits, neg⟩ digits with
      | none => bigFtoa W prec fmt neg mant exp flt
      | some digs => return formatDigits false neg digs prec fmt
    else bigFtoa W prec fmt neg mant exp flt
  else bigFtoa W prec fmt neg mant exp flt

/-- ftoa.go:81-107 and 109-165: `genericFtoa` once `bits` and `flt` are known. -/
def ftoaBits (W : Nat) (optimize : Bool) (bits : BitVec 64) (flt : FloatInfo) (fmt : Char) (prec : Int) : Go Text := do
  let neg : Bool := bits >>> (flt.expbits + flt.mantbits) ≠ 0
  let exp : Int := ((bits >>> flt.mantbits) &&& (1 <<< flt.expbits - 1)).toNat
  let mant := bits &&& (1 <<< flt.mantbits - 1)
  if exp = 2 ^ flt.expbits - 1 then
    return if mant ≠ 0 then ['N', 'a', 'N'] else if neg then ['-', 'I', 'n', 'f'] else ['+', 'I', 'n', 'f']
  let (exp, mant) := if exp = 0 then (exp + 1, mant) else (exp, mant ||| 1 <<< flt.mantbits)
  ftoaFinite W optimize fmt prec neg mant (exp + flt.bias) flt

/-- ftoa.go:62-165: `genericFtoa`, the text appended to `dst` -/
def genericFtoa (W : Nat) (optimize : Bool) (val : F64) (fmt : Char) (prec bitSize : Int) : Go Text := do
  if bitSize = 16 then
    let (f, _) ← Binary16.newFromFloat64 val
    ftoaBits W optimize (f.bits.setWidth 64) float16info fmt prec
  else if bitSize = 32 then ftoaBits W optimize ((f64to32 val).setWidth 64) float32info fmt prec
  else if bitSize = 64 then ftoaBits W optimize val float64info fmt prec
  else throw .illegalBitSize

/-- ftoa.go:52-54: `FormatFloat` (the capacity given to `make` is not modelled) -/
def formatFloat (W : Nat) (f : F64) (fmt : Char) (prec bitSize : Int) : Go Text :=
  genericFtoa W true f fmt prec bitSize

/-- ftoa.go:58-60: `AppendFloat` -/
def appendFloat (W : Nat) (dst : Text) (f : F64) (fmt : Char) (prec bitSize : Int) : Go Text := do
  return dst ++ (← genericFtoa W true f fmt prec bitSize)

end GoFloat.Strconv
