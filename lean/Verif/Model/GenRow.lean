import Verif.Model.Gen
import Verif.Model.BigText
import Verif.Model.Ftoa
/-
The texts of the rows that /repo/binary16/gen.go and /repo/binary128/gen.go write (`fmt.Sprintf`, standard library).
The template (`text/template`) copies each text into a line of its own (`{{ . }}`); this is not modelled.
-/
namespace GoFloat

/-- The character of a hexadecimal digit, as `%X` prints it. -/
def hexChar (d : Nat) : Char := if d < 10 then digitChar d else Char.ofNat (55 + d)

/-- `%0<w>X`: hexadecimal, padded with zeros on the left to at least `w` characters. -/
def fmtHexPad (w n : Nat) : Text :=
  let s := if n = 0 then ['0'] else (digitsOf 16 n).map hexChar
  List.replicate (w - s.length) '0' ++ s

/-- The text of the expression. `%v` prints a float64 as `strconv.FormatFloat(x, 'g', -1, 64)` does; internal/strconv of /repo is
a copy of that package, whose model is used here (with a `uint` of 64 bits). -/
def Lit.text : Lit → Go Text
  | .value x => Strconv.genericFtoa 64 true x 'g' (-1) 64
  | .negZero => .ok "math.Copysign(0, -1)".toList
  | .inf sign => .ok (if sign ≥ 0 then "math.Inf(+1)" else "math.Inf(-1)").toList

namespace Binary16.Gen

/-- binary16/gen.go:74, 109, 112: `fmt.Sprintf("{bits: 0x%04X, want: %v}, // %s", bits, want, s)`, and the same with
`math.Copysign(0, -1)` -/
def Row.text (r : Row) (s : Text) : Go Text := do
  let want ← r.want.text
  return "{bits: 0x".toList ++ fmtHexPad 4 r.bits.toNat ++ ", want: ".toList ++ want ++ "}, // ".toList ++ s

/-- binary16/gen.go:49-80: `getNormalized`, with the texts -/
def getNormalizedText : Go (List Text) :=
  ((List.range 2).flatMap fun signbit =>
    (List.range 0x1E).flatMap fun exp =>
      (List.range 0x400).map fun mant => (signbit, exp + 1, mant)).mapM
    fun (signbit, exp, mant) => do
      let r ← normalizedRow signbit exp mant
      r.text (text 1 mant)

/-- binary16/gen.go:82-118: `getDenormalized`, with the texts -/
def getDenormalizedText : Go (List Text) :=
  ((List.range 2).flatMap fun signbit => (List.range 0x400).map fun mant => (signbit, mant)).mapM
    fun (signbit, mant) => do
      let r ← denormalizedRow signbit mant
      r.text (text 0 mant)

end Binary16.Gen

namespace Binary128.Gen

/-- `%v` of a `big.Accuracy` (its method `String`) -/
def accuracyText : Accuracy → Text
  | .below => "Below".toList
  | .exact => "Exact".toList
  | .above => "Above".toList

/-- binary128/gen.go:126, 129, 132, 135 (and 177, 180, 183, 186):
`fmt.Sprintf("{a: 0x%016X, b: 0x%016X, want: %q, want64: %v, acc64: big.%v}, // %s", a, b, want, want64, acc64, s)`, and the same
with the special expressions. `%q` of a text of digits, signs, points and letters puts it in quotes. -/
def Row.text (r : Row) (s : Text) : Go Text := do
  let want64 ← r.want64.text
  return "{a: 0x".toList ++ fmtHexPad 16 r.a.toNat ++ ", b: 0x".toList ++ fmtHexPad 16 r.b.toNat ++ ", want: \"".toList ++
    r.want.textG 35 ++ "\", want64: ".toList ++ want64 ++ ", acc64: big.".toList ++ accuracyText r.acc64 ++ "}, // ".toList ++ s

/-- binary128/gen.go:93-142: `getNormalized(exps, mants)`, with the texts -/
def getNormalizedText (exps : List Nat) (mants : List MantBits) : Go (List Text) :=
  ((List.range 2).flatMap fun signbit =>
    exps.flatMap fun exp => mants.map fun mantBits => (signbit, exp, mantBits)).mapM
    fun (signbit, exp, mantBits) => do
      let r ← row signbit 1 exp ((exp : Int) - bias) mantBits
      r.text (text signbit 1 mantBits ((exp : Int) - bias))

/-- binary128/gen.go:144-192: `getDenormalized(mants)`, with the texts -/
def getDenormalizedText (mants : List MantBits) : Go (List Text) :=
  ((List.range 2).flatMap fun signbit => mants.map fun mantBits => (signbit, mantBits)).mapM
    fun (signbit, mantBits) => do
      let r ← row signbit 0 0 (0 - bias + 1) mantBits
      r.text (text signbit 0 mantBits (0 - bias + 1))

end Binary128.Gen
end GoFloat
