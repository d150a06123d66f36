import Verif.Model.Ftoa
/-
Model of /repo/float.go, and of `big.Float.Text('e', 100)` which it uses (standard library, trusted base).
-/
namespace GoFloat

/-- `math/big` `decimal.init`: the exact decimal digits (most significant first, no trailing zeros) and the
decimal point of the finite number `mant * 2^e`. -/
def exactDecimal (mant : Nat) (e : Int) : List Nat × Int :=
  let n : Nat := if 0 ≤ e then mant * 2 ^ e.toNat else mant * 5 ^ (-e).toNat
  let ds := digitsOf 10 n
  let dp : Int := if 0 ≤ e then ds.length else ds.length + e
  (Strconv.dropTrailingZeros ds, dp)

/-- `math/big` `decimal.round(n)`: round half to even to at most `n` digits. -/
def roundDecimal (d : List Nat × Int) (n : Nat) : List Nat × Int :=
  if n ≥ d.1.length then d
  else
    let up : Bool :=
      if d.1.getD n 0 = 5 ∧ n + 1 = d.1.length then decide (n > 0) && d.1.getD (n - 1) 0 % 2 != 0
      else d.1.getD n 0 ≥ 5
    if up then
      match Strconv.roundUpDigits (d.1.take n) with
      | some ds => (ds, d.2)
      | none => ([1], d.2 + 1)
    else
      let ds := Strconv.dropTrailingZeros (d.1.take n)
      (ds, if ds.length = 0 then 0 else d.2)

/-- `math/big` `fmtE(buf, 'e', prec, d)` -/
def bigFmtE (prec : Nat) (d : List Nat × Int) : Text :=
  let first := digitChar (d.1.getD 0 0)
  let mid := ((d.1.take (prec + 1)).drop 1).map digitChar
  let more := if prec > 0 then '.' :: mid ++ List.replicate (prec - mid.length) '0' else []
  let exp : Int := if d.1.length = 0 then 0 else d.2 - 1
  let sign := if exp < 0 then '-' else '+'
  let e := exp.natAbs
  first :: more ++ ['e', sign] ++ (if e < 10 then ['0'] else []) ++ fmtNat 10 e

/-- `x.Text('e', prec)` -/
def BigFloat.textE (x : BigFloat) (prec : Nat) : Text :=
  let sign := if x.neg then ['-'] else []
  match x.form with
  | .inf => (if x.neg then ['-'] else ['+']) ++ ['I', 'n', 'f']
  | .zero => sign ++ bigFmtE prec ([], 0)
  | .finite => sign ++ bigFmtE prec (roundDecimal (exactDecimal x.mant (x.exp - bitLen x.mant)) (prec + 1))

/-- float.go:58-62: `for ; pos > 0; pos--` until `s[pos] != '0'` -/
def trimPos (s : Text) : Nat → Nat
  | 0 => 0
  | pos + 1 => if s.getD (pos + 1) 'e' ≠ '0' then pos + 1 else trimPos s pos

/-- float.go:52-67: `trimZeros(s)`. `strings.Index(s, "e")` is the first position of `'e'`.
For a string that begins with `'e'`, `s[pos]` with `pos = -1` panics. -/
def trimZeros (s : Text) : Go Text := do
  match s.findIdx? (· = 'e') with
  | none => throw .noExponent
  | some epos =>
    if epos = 0 then throw .index
    let pos := trimPos s (epos - 1)
    let pos := if s.getD pos 'e' ≠ '.' then pos + 1 else pos
    return s.take pos ++ s.drop epos

/-- float.go:14-22 -/
def isExact16 (W : Nat) (x : BigFloat) : Go Bool := do
  let (f, acc) := x.float64
  if acc ≠ .exact then return false
  let s1 ← Strconv.formatFloat W f 'e' (-1) 16
  let s2 ← trimZeros (x.textE 100)
  return s1 == s2

/-- float.go:26-34 -/
def isExact32 (W : Nat) (x : BigFloat) : Go Bool := do
  let (f, acc) := x.float32
  if acc ≠ .exact then return false
  let s1 ← Strconv.formatFloat W (f32to64 f) 'e' (-1) 32
  let s2 ← trimZeros (x.textE 100)
  return s1 == s2

/-- float.go:38-46 -/
def isExact64 (W : Nat) (x : BigFloat) : Go Bool := do
  let (f, acc) := x.float64
  if acc ≠ .exact then return false
  let s1 ← Strconv.formatFloat W f 'e' (-1) 64
  let s2 ← trimZeros (x.textE 100)
  return s1 == s2

end GoFloat
