import Verif.Model.Gen
import Verif.Model.Float
import Verif.Model.Binary128
/-
`big.Float.Text('g', prec)` and `big.Float.SetString` for decimal numbers (standard library, trusted base: `math/big/ftoa.go`
and `floatconv.go`), and the function `testNewFromBits` of /repo/binary128/extra_test.tmpl, which uses them.
-/
namespace GoFloat

/-- `math/big` `decimal.at(i)` -/
def decimalAt (d : List Nat × Int) (i : Int) : Char := digitChar (if 0 ≤ i then d.1.getD i.toNat 0 else 0)

/-- `math/big` `fmtF(buf, prec, d)` -/
def bigFmtF (prec : Nat) (d : List Nat × Int) : Text :=
  let int := if d.2 > 0 then (d.1.take d.2.toNat).map digitChar ++ List.replicate (d.2.toNat - d.1.length) '0' else ['0']
  int ++ (if prec > 0 then '.' :: (List.range prec).map (fun i : Nat => decimalAt d (d.2 + i)) else [])

/-- The case `'g'` of `Float.Append`, after `d.round(prec)`. (`prec ≥ 1`; a precision of 0 would be taken as 1.) -/
def bigFmtG (prec : Nat) (d : List Nat × Int) : Text :=
  let eprec : Int := if prec > d.1.length ∧ (d.1.length : Int) ≥ d.2 then d.1.length else prec
  let exp := d.2 - 1
  if exp < -4 ∨ exp ≥ eprec then bigFmtE (min prec d.1.length - 1) d
  else
    let prec : Int := if (prec : Int) > d.2 then d.1.length else prec
    bigFmtF (max (prec - d.2) 0).toNat d

/-- `x.Text('g', prec)` for `prec ≥ 1` -/
def BigFloat.textG (x : BigFloat) (prec : Nat) : Text :=
  let sign := if x.neg then ['-'] else []
  match x.form with
  | .inf => (if x.neg then ['-'] else ['+']) ++ ['I', 'n', 'f']
  | .zero => sign ++ bigFmtG prec ([], 0)
  | .finite => sign ++ bigFmtG prec (roundDecimal (exactDecimal x.mant (x.exp - bitLen x.mant)) prec)

namespace BigFloat

/-- `z.SetUint64(x)` for `x ≠ 0` and a `z` of at least 64 bits of precision -/
def setUint64 (z : BigFloat) (x : Nat) : BigFloat :=
  { z with acc := .exact, neg := false, form := .finite, mant := x, exp := bitLen x }

/-- `z.Mul(x, y)` for finite `x` and `y` and a `z` with a precision: the product, rounded. -/
def mul (z x y : BigFloat) : BigFloat :=
  let m := x.mant * y.mant
  setExpAndRound { z with neg := x.neg != y.neg, mant := m }
    (x.exp - bitLen x.mant + (y.exp - bitLen y.mant) + bitLen m)

/-- `z.Quo(x, y)` for finite `x` and `y` and a `z` with a precision: the quotient, rounded. As in Go, the integer quotient
of the mantissas is taken with more bits than the precision has, and the remainder counts only as being zero or not; here
it is the last bit of the mantissa before rounding. -/
def quo (z x y : BigFloat) : BigFloat :=
  let k := z.prec + bitLen y.mant + 1
  let n := x.mant <<< k
  let m := 2 * (n / y.mant) + (if n % y.mant = 0 then 0 else 1)
  setExpAndRound { z with neg := x.neg != y.neg, mant := m }
    (x.exp - bitLen x.mant - (y.exp - bitLen y.mant) - k - 1 + bitLen m)

/-- The loop of `pow5`; the first argument is fuel (the number of bits of `n`). -/
def pow5Loop : Nat → BigFloat → BigFloat → Nat → BigFloat
  | 0, z, _, _ => z
  | i + 1, z, f, n =>
    if n = 0 then z
    else pow5Loop i (if n % 2 = 1 then z.mul z f else z) (f.mul f f) (n / 2)

/-- `z.pow5(n)`: 5^n, by repeated squaring with rounding -/
def pow5 (z : BigFloat) (n : Nat) : BigFloat :=
  if n ≤ 27 then z.setUint64 (5 ^ n)
  else
    let z := z.setUint64 (5 ^ 27)
    let f := (new.setPrec (z.prec + 64)).setUint64 5
    pow5Loop (bitLen (n - 27)) z f (n - 27)

end BigFloat

/-- The digits after the point, if there is one. -/
def scanFraction (m : Nat) : Text → Nat × Nat × Text
  | '.' :: s => scanDigits 10 s m 0
  | s => (m, 0, s)

/-- The part of `Float.scan` (base argument 0) that handles a decimal mantissa, with an optional exponent after `e`. Other
prefixes, underscores and other letters are not modelled (they yield `none`): `Text` does not print them. -/
def scanDecimal (s : Text) : Option Scanned :=
  let (neg, s) := scanSign s
  let (m, n1, s) := scanDigits 10 s 0 0
  let (m, n2, s) := scanFraction m s
  if n1 + n2 = 0 then none
  else
    match s with
    | [] => some { neg := neg, mant := m, frac := n2, exp := 0 }
    | 'e' :: s =>
      let (eneg, s) := scanSign s
      let (e, n, s) := scanDigits 10 s 0 0
      if n = 0 ∨ s ≠ [] then none
      else some { neg := neg, mant := m, frac := n2, exp := if eneg then -(e : Int) else e }
    | _ => none

/-- `x.SetString(s)` for decimal numbers: the number, rounded to `x.prec` bits (64 if that is 0); `none` stands for the
result `nil, false`. The mantissa is read exactly; then it is multiplied with or divided by a power of five that has 64 bits
more than the result. -/
def BigFloat.setString (x : BigFloat) (s : Text) : Option BigFloat :=
  match scanDecimal s with
  | none => none
  | some r =>
    let prec := if x.prec = 0 then 64 else x.prec
    if r.mant = 0 then some { x with neg := r.neg, prec := prec, acc := .exact, form := .zero, mant := 0 }
    else
      let exp5 : Int := r.exp - r.frac
      let exp2 : Int := bitLen r.mant + exp5
      if BigFloat.MinExp ≤ exp2 ∧ exp2 ≤ BigFloat.MaxExp then
        let z : BigFloat := { x with neg := r.neg, prec := prec, form := .finite, mant := r.mant, exp := exp2 }
        if exp5 = 0 then some z.round
        else
          let p := BigFloat.new.setPrec (prec + 64)
          if exp5 < 0 then some (z.quo z (p.pow5 (-exp5).toNat))
          else some (z.mul z (p.pow5 exp5.toNat))
      else none

namespace Binary128.Gen

/-- binary128/extra_test.tmpl:43-58, 62-77: the `switch` on the accuracy. Is the comparison of the two numbers the one that the
accuracy claims? -/
def accurate (acc : Accuracy) (got want : BigFloat) : Bool :=
  match acc with
  | .below => got.cmp want == .lt
  | .exact => got.cmp want == .eq
  | .above => got.cmp want == .gt

/-- binary128/extra_test.tmpl:19-80: one round of the loop of `testNewFromBits`; `false` if a `t.Errorf` is reached. `g.want`
is the text `m.Text('g', 35)` that gen.go:116, 167 prints. A row whose `want64` is not a Go expression is an error
(`Lit.eval`). -/
def testNewFromBits (g : Row) : Go Bool := do
  let want := g.want.textG 35
  let f := newFromBits g.a g.b
  let (got, _) ← f.big
  let ok1 := want == got.textG 35
  let (got64, acc64) ← f.float64
  let ok2 := g.want64.eval == some got64
  let ok3 := g.acc64 == acc64
  match ((← newFloat 0).setPrec Binary128.precision).setString want with
  | none => throw .nilPointer
  | some wantBig =>
    let got64Big ← newFloat got64
    let ok4 := accurate acc64 got64Big wantBig
    let (got32, acc32) ← f.float32
    let got32Big ← newFloat (f32to64 got32)
    let ok5 := accurate acc32 got32Big wantBig
    return ok1 && ok2 && ok3 && ok4 && ok5

end Binary128.Gen
end GoFloat
