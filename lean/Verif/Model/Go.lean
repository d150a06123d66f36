/-
Go language and runtime notions shared by the whole model: panics, `big.Accuracy`,
`big.RoundingMode`, text as a list of characters.
-/
namespace GoFloat

/-- The ways in which the modelled code can panic. Go: a run-time panic. -/
inductive Panic
  /-- `big.ErrNaN`: `big.NewFloat(NaN)`, `Inf - Inf`. -/
  | errNaN
  /-- /repo binary16/binary16.go:257-258 and siblings: `panic(err)` after a failed `Parse`. -/
  | parse
  /-- /repo float.go:54-56: no exponent in the text given to `trimZeros`. -/
  | noExponent
  /-- /repo internal/strconv/itoa.go:90-92: illegal base. -/
  | illegalBase
  /-- /repo internal/strconv/ftoa.go:77-78: illegal bit size. -/
  | illegalBitSize
  /-- index or slice out of range -/
  | index
  /-- explicit `panic("strconv: ...")` of internal/strconv/extfloat.go -/
  | internal
  /-- integer division by zero / negative shift (never reached; kept so that nothing is totalised) -/
  | arith
  /-- `make` of a slice with a negative or too large capacity -/
  | makeslice
  /-- a nil pointer is dereferenced -/
  | nilPointer
  /-- the fuel of a loop of the model ran out: stands for a loop that would not stop -/
  | diverge
  deriving DecidableEq, Repr

/-- A Go computation that may panic. -/
abbrev Go (α : Type) := Except Panic α

/-- `math/big.Accuracy`: `Below = -1`, `Exact = 0`, `Above = +1`. -/
inductive Accuracy
  | below | exact | above
  deriving DecidableEq, Repr

/-- `big.Accuracy(c)` of a comparison result `c : int8`, used in /repo float128ppc/float128ppc.go:118. -/
def Accuracy.ofOrdering : Ordering → Accuracy
  | .lt => .below
  | .eq => .exact
  | .gt => .above

/-- `math/big.RoundingMode`. -/
inductive RoundingMode
  | toNearestEven | toNearestAway | toZero | awayFromZero | toNegativeInf | toPositiveInf
  deriving DecidableEq, Repr

/-- `math/big` `makeAcc(above bool)`. -/
def makeAcc (above : Bool) : Accuracy := if above then .above else .below

/-- Number of bits of `n` (`bits.Len`, `nat.bitLen`). -/
def bitLen (n : Nat) : Nat := if n = 0 then 0 else n.log2 + 1

/-- Number of trailing zero bits of `n` (`nat.trailingZeroBits`); 0 for 0. Structural in the fuel `f`. -/
def ntzAux : Nat → Nat → Nat
  | 0, _ => 0
  | f + 1, n => if n % 2 = 0 then ntzAux f (n / 2) + 1 else 0

/-- Number of trailing zero bits of `n` (0 for `n = 0`). -/
def ntz (n : Nat) : Nat := if n = 0 then 0 else ntzAux (bitLen n) n

end GoFloat
