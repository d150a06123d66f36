import Verif.Model.BigFloat
/-
Model of the text the code builds with `fmt.Sprintf` and hands to `big.Float.Parse`.
Standard library: part of the trusted base.
-/
namespace GoFloat

/-- Text is a list of characters (all text in /repo is ASCII). -/
abbrev Text := List Char

/-- The character of a digit value below 10 (`byte(d + '0')`). -/
def digitChar (d : Nat) : Char := Char.ofNat (48 + d)

/-- Digits of `n` in base `b ≥ 2`, most significant first, prepended to `acc`; empty for 0.
`f` is fuel. -/
def digitsAux (b : Nat) : Nat → Nat → List Nat → List Nat
  | 0, _, acc => acc
  | f + 1, n, acc => if n = 0 then acc else digitsAux b f (n / b) (n % b :: acc)

/-- Digits of `n` in base `b ≥ 2`, most significant first, no leading zeros, `[]` for 0. -/
def digitsOf (b n : Nat) : List Nat := digitsAux b (bitLen n) n []

/-- `%d` / `%b` of a non-negative number: `0` is printed as "0". -/
def fmtNat (b n : Nat) : Text := if n = 0 then ['0'] else (digitsOf b n).map digitChar

/-- `%d` of an int. -/
def fmtInt (i : Int) : Text := if i < 0 then '-' :: fmtNat 10 i.natAbs else fmtNat 10 i.natAbs

/-- `%0<w>b`: binary, padded with zeros on the left to at least `w` characters. -/
def fmtBinPad (w n : Nat) : Text :=
  let s := fmtNat 2 n
  List.replicate (w - s.length) '0' ++ s

/-- The value of a character as a digit below `b`, if it is one (digits 0-9 only). -/
def digitVal (b : Nat) (c : Char) : Option Nat :=
  if '0' ≤ c ∧ c.toNat - 48 < min b 10 then some (c.toNat - 48) else none

/-- Scans digits of base `b` from the front of `s`; returns the accumulated value, the number of
digits read, and the rest. -/
def scanDigits (b : Nat) : Text → Nat → Nat → Nat × Nat × Text
  | [], acc, n => (acc, n, [])
  | c :: cs, acc, n =>
    match digitVal b c with
    | some d => scanDigits b cs (acc * b + d) (n + 1)
    | none => (acc, n, c :: cs)

/-- `scanSign`: an optional sign. -/
def scanSign : Text → Bool × Text
  | '-' :: s => (true, s)
  | '+' :: s => (false, s)
  | s => (false, s)

/-- Result of scanning `[sign] "0b" digits ["." digits] ["p" [sign] digits]`: sign, mantissa as an
integer, number of fraction digits, binary exponent. `none` is a syntax error. -/
structure Scanned where
  neg : Bool
  mant : Nat
  frac : Nat
  exp : Int
  deriving DecidableEq, Repr

/-- The part of `Float.scan` (base argument 0) that handles a "0b" mantissa. Other prefixes, underscores
and `e` exponents are not modelled (they yield `none`): the code in /repo never produces them. -/
def scanBinary (s : Text) : Option Scanned :=
  let (neg, s) := scanSign s
  match s with
  | '0' :: 'b' :: s =>
    let (m, n1, s) := scanDigits 2 s 0 0
    let (m, n2, s) := match s with
      | '.' :: s => scanDigits 2 s m 0
      | s => (m, 0, s)
    if n1 + n2 = 0 then none
    else
      match s with
      | [] => some { neg := neg, mant := m, frac := n2, exp := 0 }
      | 'p' :: s =>
        let (eneg, s) := scanSign s
        let (e, n, s) := scanDigits 10 s 0 0
        if n = 0 ∨ s ≠ [] then none
        else some { neg := neg, mant := m, frac := n2, exp := if eneg then -(e : Int) else e }
      | _ => none
  | _ => none

/-- `x.Parse(s, 0)`: sets `x` to the number in `s`, rounded to `x.prec` bits (64 if that is 0); `none`
stands for a non-nil error. -/
def BigFloat.parse (x : BigFloat) (s : Text) : Option BigFloat :=
  match scanBinary s with
  | none => none
  | some r =>
    let prec := if x.prec = 0 then 64 else x.prec
    if r.mant = 0 then some { x with neg := r.neg, prec := prec, acc := .exact, form := .zero, mant := 0 }
    else
      let exp2 : Int := bitLen r.mant - r.frac + r.exp
      if BigFloat.MinExp ≤ exp2 ∧ exp2 ≤ BigFloat.MaxExp then
        some (BigFloat.round { x with neg := r.neg, prec := prec, form := .finite, mant := r.mant, exp := exp2 })
      else none

end GoFloat
