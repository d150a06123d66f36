import Verif.Model.Binary16
import Verif.Model.Binary128
/-
Model of /repo/binary16/gen.go and /repo/binary128/gen.go, the programs that write the test files
`extra_test.go` from `extra_test.tmpl`.

A row of the generated table is modelled here by its fields: writing the text (`fmt.Sprintf`) and reading it back
(the Go compiler) is summed up in `Lit.eval`; Verif/Model/GenRow.lean has the text, and C86 shows that it is read so.
The random number generator of dumpTest (binary128/gen.go:38-61) is not modelled: the lists of exponents and
mantissas are parameters.
-/
namespace GoFloat

/-- `big.ParseFloat(s, 0, prec, mode)` = `new(big.Float).SetPrec(prec).SetMode(mode).Parse(s, 0)` -/
def parseFloat (s : Text) (prec : Nat) (mode : RoundingMode) : Option BigFloat :=
  ((BigFloat.new.setPrec prec).setMode mode).parse s

/-- The Go product `x * y` of two float64 numbers, rounded to nearest even. The operands in gen.go are
finite; other operands are not modelled (they give a zero here). -/
def f64mul (x y : F64) : F64 :=
  let a := decodeIEEE 52 11 x.toNat
  let b := decodeIEEE 52 11 y.toNat
  let neg := a.neg != b.neg
  if a.form = .finite ∧ b.form = .finite then
    let m := a.mant * b.mant
    let e : Int := (a.exp - bitLen a.mant) + (b.exp - bitLen b.mant)
    (BigFloat.float64 { BigFloat.new with prec := 106, form := .finite, neg := neg, mant := m, exp := e + bitLen m }).1
  else if neg then F64.negZero else 0

/-- `math.Pow(2, k)` for an integer `k`: the power of two, correctly rounded (exact in the range of gen.go) -/
def powTwo (k : Int) : F64 :=
  (BigFloat.float64 { BigFloat.new with prec := 53, form := .finite, mant := 1, exp := k + 1 }).1

/-- `math.Pow(-1, n)` -/
def powMinusOne (n : Nat) : F64 := if n % 2 = 0 then 0x3FF0000000000000 else 0xBFF0000000000000

/-- The expression for a float64 in a row of the generated table: the text `%v` of a number, or one of the
special expressions `math.Copysign(0, -1)`, `math.Inf(+1)`, `math.Inf(-1)`. -/
inductive Lit
  | value (x : F64)
  | negZero
  | inf (sign : Int)
  deriving DecidableEq, Repr

/-- The value of the expression in the compiled test. The text `%v` of a finite number reads back as that
number, except that the constant `-0` is the positive zero; `+Inf` and `NaN` are not Go expressions. -/
def Lit.eval : Lit → Option F64
  | .value x =>
    if x.toNat % 2 ^ 63 ≥ 0x7FF * 2 ^ 52 then none else if x = F64.negZero then some 0 else some x
  | .negZero => some F64.negZero
  | .inf sign => some (F64.inf sign)

namespace Binary16.Gen

/-- A row `{bits: ..., want: ...}` of the generated table. -/
structure Row where
  bits : BitVec 16
  want : Lit
  deriving DecidableEq, Repr

/-- binary16/gen.go:47 -/
def bias : Int := 15

/-- binary16/gen.go:61, 94: `fmt.Sprintf("%s0b%d.%010bp0", "+", lead, mant)` -/
def text (lead mant : Nat) : Text :=
  ['+', '0', 'b'] ++ fmtNat 10 lead ++ ['.'] ++ fmtBinPad 10 mant ++ ['p', '0']

/-- binary16/gen.go:61-69, 94-102: the mantissa as a float64; the panic of lines 68 and 101
("not exact") is `Panic.internal`. -/
def mantissa (lead mant : Nat) : Go F64 :=
  match parseFloat (text lead mant) 53 .toNearestEven with
  | none => .error .parse
  | some m => if m.float64.2 ≠ .exact then .error .internal else .ok m.float64.1

/-- binary16/gen.go:71-73, 104-106: `uint16(signbit) << 15 | uint16(exp) << 10 | uint16(mant)` -/
def rowBits (signbit exp mant : Nat) : BitVec 16 :=
  BitVec.ofNat 16 signbit <<< 15 ||| BitVec.ofNat 16 exp <<< 10 ||| BitVec.ofNat 16 mant

/-- binary16/gen.go:61-75: one round of the inner loop -/
def normalizedRow (signbit exp mant : Nat) : Go Row := do
  let mantissa ← mantissa 1 mant
  let want := f64mul (f64mul (powMinusOne signbit) (powTwo ((exp : Int) - bias))) mantissa
  return ⟨rowBits signbit exp mant, .value want⟩

/-- binary16/gen.go:49-80: `getNormalized` -/
def getNormalized : Go (List Row) :=
  ((List.range 2).flatMap fun signbit =>
    (List.range 0x1E).flatMap fun exp =>
      (List.range 0x400).map fun mant => (signbit, exp + 1, mant)).mapM
    fun (signbit, exp, mant) => normalizedRow signbit exp mant

/-- binary16/gen.go:94-114: one round of the inner loop -/
def denormalizedRow (signbit mant : Nat) : Go Row := do
  let exp : Nat := 0
  let mantissa ← mantissa 0 mant
  let want := f64mul (f64mul (powMinusOne signbit) (powTwo ((exp : Int) - bias + 1))) mantissa
  let bits := rowBits signbit exp mant
  return ⟨bits, if bits = 0x8000 then .negZero else .value want⟩

/-- binary16/gen.go:82-118: `getDenormalized` -/
def getDenormalized : Go (List Row) :=
  ((List.range 2).flatMap fun signbit => (List.range 0x400).map fun mant => (signbit, mant)).mapM
    fun (signbit, mant) => denormalizedRow signbit mant

end Binary16.Gen

namespace Binary128.Gen

/-- binary128/gen.go:86-91: `type MantBits struct { a, b uint64 }` -/
structure MantBits where
  a : BitVec 64
  b : BitVec 64
  deriving DecidableEq, Repr

/-- A row `{a: ..., b: ..., want: ..., want64: ..., acc64: ...}` of the generated table; `want` is the
variable whose text `m.Text('g', 35)` is printed. -/
structure Row where
  a : BitVec 64
  b : BitVec 64
  want : BigFloat
  want64 : Lit
  acc64 : Accuracy
  deriving DecidableEq, Repr

/-- binary128/gen.go:81 -/
def precision : Nat := 113
/-- binary128/gen.go:83 -/
def bias : Int := 16383

/-- binary128/gen.go:110-111, 161-162: `fmt.Sprintf("%048b%064b", ...)`, then
`fmt.Sprintf("%s0b%d.%sp%d", sign, lead, mant, exponent)` -/
def text (signbit lead : Nat) (mantBits : MantBits) (exponent : Int) : Text :=
  let mant := fmtBinPad 48 mantBits.a.toNat ++ fmtBinPad 64 mantBits.b.toNat
  (if signbit = 1 then ['-'] else ['+']) ++ ['0', 'b'] ++ fmtNat 10 lead ++ ['.'] ++ mant
    ++ ['p'] ++ fmtInt exponent

/-- binary128/gen.go:123-136, 174-187: the expression for `want64`. The comparisons with `math.Inf` are
equality of the bits, since an infinity is equal to itself only. -/
def lit (want64 : F64) : Lit :=
  if want64 = F64.negZero then .negZero
  else if want64 = F64.inf 1 then .inf 1
  else if want64 = F64.inf (-1) then .inf (-1)
  else .value want64

/-- binary128/gen.go:110-137, 161-188: one round of the inner loop -/
def row (signbit lead exp : Nat) (exponent : Int) (mantBits : MantBits) : Go Row :=
  match parseFloat (text signbit lead mantBits exponent) precision .toNearestEven with
  | none => .error .parse
  | some m =>
    let (want64, acc64) := m.float64
    let a := BitVec.ofNat 64 signbit <<< 63 ||| BitVec.ofNat 64 exp <<< 48 ||| mantBits.a
    .ok ⟨a, mantBits.b, m, lit want64, acc64⟩

/-- binary128/gen.go:93-142: `getNormalized(exps, mants)` -/
def getNormalized (exps : List Nat) (mants : List MantBits) : Go (List Row) :=
  ((List.range 2).flatMap fun signbit =>
    exps.flatMap fun exp => mants.map fun mantBits => (signbit, exp, mantBits)).mapM
    fun (signbit, exp, mantBits) => row signbit 1 exp ((exp : Int) - bias) mantBits

/-- binary128/gen.go:144-192: `getDenormalized(mants)` -/
def getDenormalized (mants : List MantBits) : Go (List Row) :=
  ((List.range 2).flatMap fun signbit => mants.map fun mantBits => (signbit, mantBits)).mapM
    fun (signbit, mantBits) => row signbit 0 0 (0 - bias + 1) mantBits

end Binary128.Gen

end GoFloat
