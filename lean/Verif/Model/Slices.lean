import Verif.Model.Ftoa
/-
The functions of /repo/internal/strconv that append to a slice given by the caller, with the memory
that the slice lies in.

In Verif/Model/{Itoa,Ftoa}.lean these functions return the text that they append. Here a slice is what it
is in Go, a window into an array that other slices may look into as well, and every `append` of the Go
text writes into the free end of the window, or, if the bytes do not fit, into a new array. The
digits (`decimalSlice`, the array `a` of `formatBits`) stay values: they lie in local arrays or in a
`decimal` made by the function, and are not written any more when the appending begins.
-/
namespace GoFloat.Strconv

/-- The arrays of bytes that exist, the one with number `n` being the `n`-th. -/
abbrev Arrays := List Text

/-- A Go slice of bytes: `len` bytes from position `off` of the array `arr`, of which it may use `cap`.
A nil slice is a slice with `cap = 0`, of any array. -/
structure Slice where
  arr : Nat
  off : Nat
  len : Nat
  cap : Nat
  deriving DecidableEq, Repr

/-- A computation that reads and writes arrays and may panic; what it wrote before a panic stays. -/
abbrev Buf (α : Type) := ExceptT Panic (StateM Arrays) α

/-- The bytes of a slice. -/
def Slice.bytes (s : Slice) (h : Arrays) : Text := ((h.getD s.arr []).drop s.off).take s.len

/-- The array `a` with the bytes `bs` written from position `i`. -/
def writeAt (a : Text) (i : Nat) (bs : Text) : Text := a.take i ++ bs ++ a.drop (i + bs.length)

/-- `append(s, bs...)`. If the bytes fit they are written behind those of `s`, in the same array;
otherwise to a new array, whose size the Go runtime chooses: `grow cap need`, at least what is needed. -/
def Slice.append (grow : Nat → Nat → Nat) (s : Slice) (bs : Text) : Buf Slice := fun h =>
  if s.len + bs.length ≤ s.cap then
    (.ok { s with len := s.len + bs.length }, h.set s.arr (writeAt (h.getD s.arr []) (s.off + s.len) bs))
  else
    let need := s.len + bs.length
    let cap := max need (grow s.cap need)
    (.ok ⟨h.length, 0, need, cap⟩, h ++ [s.bytes h ++ bs ++ List.replicate (cap - need) (Char.ofNat 0)])

/-- `make([]byte, 0, cap)` -/
def makeSlice (cap : Nat) : Buf Slice := fun h =>
  (.ok ⟨h.length, 0, 0, cap⟩, h ++ [List.replicate cap (Char.ofNat 0)])

/-- The result or the panic of a computation without arrays. -/
def Buf.run (g : Go α) : Buf α := fun h => (g, h)

variable (grow : Nat → Nat → Nat)

/-- ftoa.go:364-366, 411-413: `n` times `dst = append(dst, '0')` -/
def appendZeros : Nat → Slice → Buf Slice
  | 0, dst => pure dst
  | n + 1, dst => do appendZeros n (← dst.append grow ['0'])

/-- ftoa.go:344-396: `fmtE` -/
def fmtEBuf (dst : Slice) (neg : Bool) (d : DecimalSlice) (prec : Int) (fmt : Char) : Buf Slice := do
  let dst ← if neg then dst.append grow ['-'] else pure dst
  let ch := if d.nd ≠ 0 then d.d.getD 0 48 else 48
  let dst ← dst.append grow [byteChar ch]
  let dst ←
    if prec > 0 then do
      let dst ← dst.append grow ['.']
      let m : Int := min d.nd (prec + 1)
      let dst ← if 1 < m then dst.append grow (((d.d.take m.toNat).drop 1).map byteChar) else pure dst
      let i : Int := if 1 < m then m else 1
      appendZeros grow (prec + 1 - i).toNat dst
    else pure dst
  let dst ← dst.append grow [fmt]
  let exp : Int := if d.nd = 0 then 0 else d.dp - 1
  let ch := if exp < 0 then '-' else '+'
  let dst ← dst.append grow [ch]
  let e := exp.natAbs
  if e < 10 then dst.append grow ['0', byteChar (e + 48)]
  else if e < 100 then dst.append grow [byteChar (e / 10 + 48), byteChar (e % 10 + 48)]
  else dst.append grow [byteChar ((e / 100 % 256 + 48) % 256), byteChar (e / 10 % 256 % 10 + 48), byteChar (e % 10 + 48)]

/-- ftoa.go:420-426: the loop over the digits after the point; `i` is the index, `n` the number of digits left -/
def appendFrac (d : DecimalSlice) : Nat → Nat → Slice → Buf Slice
  | 0, _, dst => pure dst
  | n + 1, i, dst => do
    let j := d.dp + i
    let ch := if 0 ≤ j ∧ j < d.nd then d.d.getD j.toNat 48 else 48
    appendFrac d n (i + 1) (← dst.append grow [byteChar ch])

/-- ftoa.go:399-429: `fmtF` -/
def fmtFBuf (dst : Slice) (neg : Bool) (d : DecimalSlice) (prec : Int) : Buf Slice := do
  let dst ← if neg then dst.append grow ['-'] else pure dst
  let dst ←
    if d.dp > 0 then do
      let m : Int := min d.nd d.dp
      let dst ← dst.append grow ((d.d.take m.toNat).map byteChar)
      appendZeros grow (d.dp - m).toNat dst
    else dst.append grow ['0']
  if prec > 0 then do
    let dst ← dst.append grow ['.']
    appendFrac grow d prec.toNat 0 dst
  else pure dst

/-- itoa.go:89-202: `formatBits` with `doAppend`: the bytes made in the local array are appended at the end -/
def formatBitsBuf (W : Nat) (dst : Slice) (u : BitVec 64) (base : Int) (neg : Bool) : Buf Slice := do
  dst.append grow (← Buf.run (formatBits W u base neg))

/-- ftoa.go:432-452: `fmtB` -/
def fmtBBuf (W : Nat) (dst : Slice) (neg : Bool) (mant : BitVec 64) (exp : Int) (flt : FloatInfo) : Buf Slice := do
  let dst ← if neg then dst.append grow ['-'] else pure dst
  let dst ← formatBitsBuf grow W dst mant 10 false
  let dst ← dst.append grow ['p']
  let exp := exp - flt.mantbits
  let dst ← if exp ≥ 0 then dst.append grow ['+'] else pure dst
  formatBitsBuf grow W dst (BitVec.ofInt 64 exp) 10 (exp < 0)

/-- ftoa.go:204-237: `formatDigits` -/
def formatDigitsBuf (dst : Slice) (shortest neg : Bool) (digs : DecimalSlice) (prec : Int) (fmt : Char) : Buf Slice :=
  if fmt = 'e' ∨ fmt = 'E' then fmtEBuf grow dst neg digs prec fmt
  else if fmt = 'f' then fmtFBuf grow dst neg digs prec
  else if fmt = 'g' ∨ fmt = 'G' then
    let eprec := if prec > digs.nd ∧ (digs.nd : Int) ≥ digs.dp then (digs.nd : Int) else prec
    let eprec := if shortest then 6 else eprec
    let exp := digs.dp - 1
    if exp < -4 ∨ exp ≥ eprec then
      let prec := if prec > digs.nd then (digs.nd : Int) else prec
      fmtEBuf grow dst neg digs (prec - 1) (Char.ofNat (fmt.toNat + 101 - 103))
    else
      let prec := if prec > digs.dp then (digs.nd : Int) else prec
      fmtFBuf grow dst neg digs (max (prec - digs.dp) 0)
  else dst.append grow ['%', fmt]

/-- ftoa.go:168-202: `bigFtoa` -/
def bigFtoaBuf (W : Nat) (dst : Slice) (prec : Int) (fmt : Char) (neg : Bool) (mant : BitVec 64) (exp : Int)
    (flt : FloatInfo) : Buf Slice := do
  let d := Decimal.new.assign mant
  let d ← Buf.run (d.shift W (exp - flt.mantbits))
  if prec < 0 then
    let d ← Buf.run (roundShortest W d mant exp flt)
    let digs : DecimalSlice := ⟨d.d.map (· + 48), d.dp, false⟩
    let prec : Int :=
      if fmt = 'e' ∨ fmt = 'E' then (digs.nd : Int) - 1
      else if fmt = 'f' then max (digs.nd - digs.dp) 0
      else if fmt = 'g' ∨ fmt = 'G' then digs.nd
      else prec
    formatDigitsBuf grow dst true neg digs prec fmt
  else
    let prec : Int := if (fmt = 'g' ∨ fmt = 'G') ∧ prec = 0 then 1 else prec
    let d :=
      if fmt = 'e' ∨ fmt = 'E' then d.round (prec + 1)
      else if fmt = 'f' then d.round (d.dp + prec)
      else if fmt = 'g' ∨ fmt = 'G' then d.round prec
      else d
    formatDigitsBuf grow dst false neg ⟨d.d.map (· + 48), d.dp, false⟩ prec fmt

/-- ftoa.go:109-165: `genericFtoa` after the bits have been taken apart -/
def ftoaFiniteBuf (W : Nat) (optimize : Bool) (dst : Slice) (fmt : Char) (prec : Int) (neg : Bool) (mant : BitVec 64)
    (exp : Int) (flt : FloatInfo) : Buf Slice := do
  if fmt = 'b' then fmtBBuf grow W dst neg mant exp flt
  else if !optimize then bigFtoaBuf grow W dst prec fmt neg mant exp flt
  else if prec < 0 then
    let (f, lower, upper) := assignComputeBounds mant exp neg flt
    match ← Buf.run (f.shortestDecimal lower upper) with
    | none => bigFtoaBuf grow W dst prec fmt neg mant exp flt
    | some digs =>
      let prec : Int :=
        if fmt = 'e' ∨ fmt = 'E' then max ((digs.nd : Int) - 1) 0
        else if fmt = 'f' then max (digs.nd - digs.dp) 0
        else if fmt = 'g' ∨ fmt = 'G' then digs.nd
        else prec
      formatDigitsBuf grow dst true neg digs prec fmt
  else if fmt ≠ 'f' then
    let prec : Int := if (fmt = 'g' ∨ fmt = 'G') ∧ prec = 0 then 1 else prec
    let digits : Int := if fmt = 'e' ∨ fmt = 'E' then prec + 1 else prec
    if digits ≤ 15 then
      match ← Buf.run (ExtFloat.fixedDecimal ⟨mant, exp - flt.mantbits, neg⟩ digits) with
      | none => bigFtoaBuf grow W dst prec fmt neg mant exp flt
      | some digs => formatDigitsBuf grow dst false neg digs prec fmt
    else bigFtoaBuf grow W dst prec fmt neg mant exp flt
  else bigFtoaBuf grow W dst prec fmt neg mant exp flt

/-- ftoa.go:81-165: `genericFtoa` once `bits` and `flt` are known -/
def ftoaBitsBuf (W : Nat) (optimize : Bool) (dst : Slice) (bits : BitVec 64) (flt : FloatInfo) (fmt : Char) (prec : Int) :
    Buf Slice :=
  let neg : Bool := bits >>> (flt.expbits + flt.mantbits) ≠ 0
  let exp : Int := ((bits >>> flt.mantbits) &&& (1 <<< flt.expbits - 1)).toNat
  let mant := bits &&& (1 <<< flt.mantbits - 1)
  if exp = 2 ^ flt.expbits - 1 then
    dst.append grow
      (if mant ≠ 0 then ['N', 'a', 'N'] else if neg then ['-', 'I', 'n', 'f'] else ['+', 'I', 'n', 'f'])
  else if exp = 0 then ftoaFiniteBuf grow W optimize dst fmt prec neg mant (exp + 1 + flt.bias) flt
  else ftoaFiniteBuf grow W optimize dst fmt prec neg (mant ||| 1 <<< flt.mantbits) (exp + flt.bias) flt

/-- ftoa.go:62-165: `genericFtoa` -/
def genericFtoaBuf (W : Nat) (optimize : Bool) (dst : Slice) (val : F64) (fmt : Char) (prec bitSize : Int) : Buf Slice := do
  if bitSize = 16 then
    let (f, _) ← Buf.run (Binary16.newFromFloat64 val)
    ftoaBitsBuf grow W optimize dst (f.bits.setWidth 64) float16info fmt prec
  else if bitSize = 32 then ftoaBitsBuf grow W optimize dst ((f64to32 val).setWidth 64) float32info fmt prec
  else if bitSize = 64 then ftoaBitsBuf grow W optimize dst val float64info fmt prec
  else throw .illegalBitSize

/-- ftoa.go:58-60: `AppendFloat` -/
def appendFloatBuf (W : Nat) (dst : Slice) (f : F64) (fmt : Char) (prec bitSize : Int) : Buf Slice :=
  genericFtoaBuf grow W true dst f fmt prec bitSize

/-- ftoa.go:52-54: `FormatFloat`; `string(...)` copies the bytes -/
def formatFloatBuf (W : Nat) (f : F64) (fmt : Char) (prec bitSize : Int) : Buf Text := do
  let dst ← makeSlice (max (prec + 4) 24).toNat
  let s ← genericFtoaBuf grow W true dst f fmt prec bitSize
  fun h => (.ok (s.bytes h), h)

/-- itoa.go:40-46: `AppendInt` -/
def appendIntBuf (W : Nat) (dst : Slice) (i : BitVec 64) (base : Int) : Buf Slice := do
  if 0 ≤ i.toInt ∧ i.toInt < nSmalls ∧ base = 10 then dst.append grow (← Buf.run (small i.toInt.toNat))
  else formatBitsBuf grow W dst i base (i.toInt < 0)

/-- itoa.go:50-56: `AppendUint` -/
def appendUintBuf (W : Nat) (dst : Slice) (i : BitVec 64) (base : Int) : Buf Slice := do
  if i.toNat < nSmalls ∧ base = 10 then dst.append grow (← Buf.run (small i.toNat))
  else formatBitsBuf grow W dst i base false

end GoFloat.Strconv
