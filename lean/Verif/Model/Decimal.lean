import Verif.Model.Text
/-
Model of /repo/internal/strconv/decimal.go, function by function.

Simplifications, for the whole file:
* the array `d [800]byte` with the count `nd` is the list of its live bytes `d[0:nd]`; `nd` is the
  length of the list. No function reads `d[i]` for `i ≥ nd`, and every loop that rewrites the array in
  place reads an index before it writes it, so building a new list is the same.
* a digit byte `'0' + n` is the number `n`.
* `uint` has `W` bits (32 or 64, decimal.go:106); its arithmetic is modulo `2 ^ W`.
-/
namespace GoFloat.Strconv

/-- decimal.go:14-20: `type decimal struct` -/
structure Decimal where
  d : List Nat
  dp : Int
  neg : Bool
  trunc : Bool
  deriving DecidableEq, Repr

/-- decimal.go:15: the capacity of the digit array -/
def decimalCap : Nat := 800

/-- `new(decimal)` -/
def Decimal.new : Decimal := { d := [], dp := 0, neg := false, trunc := false }

/-- decimal.go:16 -/
def Decimal.nd (a : Decimal) : Nat := a.d.length

/-- Drops trailing zeros of a digit list. -/
def dropTrailingZeros : List Nat → List Nat
  | [] => []
  | c :: cs =>
    match dropTrailingZeros cs with
    | [] => if c = 0 then [] else [c]
    | r => c :: r

/-- decimal.go:71-78: `trim` -/
def trim (a : Decimal) : Decimal :=
  let d := dropTrailingZeros a.d
  { a with d := d, dp := if d.length = 0 then 0 else a.dp }

/-- decimal.go:81-102: `(*decimal).Assign`; `v < 2^64` has at most 20 digits, `buf` has 24 bytes.
`digitsOf` is the loop of lines 86-99. -/
def Decimal.assign (a : Decimal) (v : BitVec 64) : Decimal :=
  let d := digitsOf 10 v.toNat
  trim { a with d := d, dp := d.length }

/-- decimal.go:107: `maxShift` -/
def maxShift (W : Nat) : Nat := W - 4

/-- decimal.go:123-126: `for n>>k == 0 { n *= 10; r++ }`; `f` is fuel -/
def rsGrow (W k : Nat) : Nat → Nat → Nat → Go (Nat × Nat)
  | 0, _, _ => .error .diverge
  | f + 1, n, r => if n >>> k = 0 then rsGrow W k f (n * 10 % 2 ^ W) (r + 1) else .ok (n, r)

/-- decimal.go:116-131: pick up enough leading digits; returns `n`, `r` and the unread digits; `none` is
the early return of lines 118-122. -/
def rsLead (W k : Nat) : List Nat → Nat → Nat → Go (Option (Nat × Nat × List Nat))
  | ds, n, r =>
    if n >>> k ≠ 0 then .ok (some (n, r, ds))
    else
      match ds with
      | [] =>
        if n = 0 then .ok none
        else do
          let (n, r) ← rsGrow W k (k + 2) n r
          return some (n, r, [])
      | c :: cs => rsLead W k cs ((n * 10 + c) % 2 ^ W) (r + 1)

/-- decimal.go:137-144: pick up a digit, put down a digit; returns the digits written and `n` -/
def rsMiddle (W k : Nat) : List Nat → Nat → List Nat × Nat
  | [], n => ([], n)
  | c :: cs, n =>
    let dig := n >>> k
    let n := n &&& (2 ^ k - 1)
    let (out, n) := rsMiddle W k cs ((n * 10 + c) % 2 ^ W)
    (dig :: out, n)

/-- decimal.go:147-157: put down extra digits; `w` is the write pointer; returns the digits written and
`trunc`; `f` is fuel -/
def rsExtra (W k : Nat) : Nat → Nat → Nat → Bool → Go (List Nat × Bool)
  | 0, _, _, _ => .error .diverge
  | f + 1, n, w, trunc =>
    if n = 0 then .ok ([], trunc)
    else do
      let dig := n >>> k
      let n := n &&& (2 ^ k - 1)
      if w < decimalCap then
        let (out, trunc) ← rsExtra W k f (n * 10 % 2 ^ W) (w + 1) trunc
        return (dig :: out, trunc)
      else rsExtra W k f (n * 10 % 2 ^ W) w (trunc || dig > 0)

/-- decimal.go:110-161: `rightShift(a, k)` -/
def rightShift (W : Nat) (a : Decimal) (k : Nat) : Go Decimal := do
  match ← rsLead W k a.d 0 0 with
  | none => return { a with d := [] }
  | some (n, r, rest) =>
    let dp := a.dp - ((r : Int) - 1)
    let (out1, n) := rsMiddle W k rest n
    let (out2, trunc) ← rsExtra W k (k + 2) n out1.length a.trunc
    return trim { a with d := out1 ++ out2, dp := dp, trunc := trunc }

/-- decimal.go:178-253: `leftcheats` (the cutoff strings as lists of digits) -/
def leftcheats : List (Int × List Nat) := [
  (0, []),
  (1, [5]),
  (1, [2, 5]),
  (1, [1, 2, 5]),
  (2, [6, 2, 5]),
  (2, [3, 1, 2, 5]),
  (2, [1, 5, 6, 2, 5]),
  (3, [7, 8, 1, 2, 5]),
  (3, [3, 9, 0, 6, 2, 5]),
  (3, [1, 9, 5, 3, 1, 2, 5]),
  (4, [9, 7, 6, 5, 6, 2, 5]),
  (4, [4, 8, 8, 2, 8, 1, 2, 5]),
  (4, [2, 4, 4, 1, 4, 0, 6, 2, 5]),
  (4, [1, 2, 2, 0, 7, 0, 3, 1, 2, 5]),
  (5, [6, 1, 0, 3, 5, 1, 5, 6, 2, 5]),
  (5, [3, 0, 5, 1, 7, 5, 7, 8, 1, 2, 5]),
  (5, [1, 5, 2, 5, 8, 7, 8, 9, 0, 6, 2, 5]),
  (6, [7, 6, 2, 9, 3, 9, 4, 5, 3, 1, 2, 5]),
  (6, [3, 8, 1, 4, 6, 9, 7, 2, 6, 5, 6, 2, 5]),
  (6, [1, 9, 0, 7, 3, 4, 8, 6, 3, 2, 8, 1, 2, 5]),
  (7, [9, 5, 3, 6, 7, 4, 3, 1, 6, 4, 0, 6, 2, 5]),
  (7, [4, 7, 6, 8, 3, 7, 1, 5, 8, 2, 0, 3, 1, 2, 5]),
  (7, [2, 3, 8, 4, 1, 8, 5, 7, 9, 1, 0, 1, 5, 6, 2, 5]),
  (7, [1, 1, 9, 2, 0, 9, 2, 8, 9, 5, 5, 0, 7, 8, 1, 2, 5]),
  (8, [5, 9, 6, 0, 4, 6, 4, 4, 7, 7, 5, 3, 9, 0, 6, 2, 5]),
  (8, [2, 9, 8, 0, 2, 3, 2, 2, 3, 8, 7, 6, 9, 5, 3, 1, 2, 5]),
  (8, [1, 4, 9, 0, 1, 1, 6, 1, 1, 9, 3, 8, 4, 7, 6, 5, 6, 2, 5]),
  (9, [7, 4, 5, 0, 5, 8, 0, 5, 9, 6, 9, 2, 3, 8, 2, 8, 1, 2, 5]),
  (9, [3, 7, 2, 5, 2, 9, 0, 2, 9, 8, 4, 6, 1, 9, 1, 4, 0, 6, 2, 5]),
  (9, [1, 8, 6, 2, 6, 4, 5, 1, 4, 9, 2, 3, 0, 9, 5, 7, 0, 3, 1, 2, 5]),
  (10, [9, 3, 1, 3, 2, 2, 5, 7, 4, 6, 1, 5, 4, 7, 8, 5, 1, 5, 6, 2, 5]),
  (10, [4, 6, 5, 6, 6, 1, 2, 8, 7, 3, 0, 7, 7, 3, 9, 2, 5, 7, 8, 1, 2, 5]),
  (10, [2, 3, 2, 8, 3, 0, 6, 4, 3, 6, 5, 3, 8, 6, 9, 6, 2, 8, 9, 0, 6, 2, 5]),
  (10, [1, 1, 6, 4, 1, 5, 3, 2, 1, 8, 2, 6, 9, 3, 4, 8, 1, 4, 4, 5, 3, 1, 2, 5]),
  (11, [5, 8, 2, 0, 7, 6, 6, 0, 9, 1, 3, 4, 6, 7, 4, 0, 7, 2, 2, 6, 5, 6, 2, 5]),
  (11, [2, 9, 1, 0, 3, 8, 3, 0, 4, 5, 6, 7, 3, 3, 7, 0, 3, 6, 1, 3, 2, 8, 1, 2, 5]),
  (11, [1, 4, 5, 5, 1, 9, 1, 5, 2, 2, 8, 3, 6, 6, 8, 5, 1, 8, 0, 6, 6, 4, 0, 6, 2, 5]),
  (12, [7, 2, 7, 5, 9, 5, 7, 6, 1, 4, 1, 8, 3, 4, 2, 5, 9, 0, 3, 3, 2, 0, 3, 1, 2, 5]),
  (12, [3, 6, 3, 7, 9, 7, 8, 8, 0, 7, 0, 9, 1, 7, 1, 2, 9, 5, 1, 6, 6, 0, 1, 5, 6, 2, 5]),
  (12, [1, 8, 1, 8, 9, 8, 9, 4, 0, 3, 5, 4, 5, 8, 5, 6, 4, 7, 5, 8, 3, 0, 0, 7, 8, 1, 2, 5]),
  (13, [9, 0, 9, 4, 9, 4, 7, 0, 1, 7, 7, 2, 9, 2, 8, 2, 3, 7, 9, 1, 5, 0, 3, 9, 0, 6, 2, 5]),
  (13, [4, 5, 4, 7, 4, 7, 3, 5, 0, 8, 8, 6, 4, 6, 4, 1, 1, 8, 9, 5, 7, 5, 1, 9, 5, 3, 1, 2, 5]),
  (13, [2, 2, 7, 3, 7, 3, 6, 7, 5, 4, 4, 3, 2, 3, 2, 0, 5, 9, 4, 7, 8, 7, 5, 9, 7, 6, 5, 6, 2, 5]),
  (13, [1, 1, 3, 6, 8, 6, 8, 3, 7, 7, 2, 1, 6, 1, 6, 0, 2, 9, 7, 3, 9, 3, 7, 9, 8, 8, 2, 8, 1, 2, 5]),
  (14, [5, 6, 8, 4, 3, 4, 1, 8, 8, 6, 0, 8, 0, 8, 0, 1, 4, 8, 6, 9, 6, 8, 9, 9, 4, 1, 4, 0, 6, 2, 5]),
  (14, [2, 8, 4, 2, 1, 7, 0, 9, 4, 3, 0, 4, 0, 4, 0, 0, 7, 4, 3, 4, 8, 4, 4, 9, 7, 0, 7, 0, 3, 1, 2, 5]),
  (14, [1, 4, 2, 1, 0, 8, 5, 4, 7, 1, 5, 2, 0, 2, 0, 0, 3, 7, 1, 7, 4, 2, 2, 4, 8, 5, 3, 5, 1, 5, 6, 2, 5]),
  (15, [7, 1, 0, 5, 4, 2, 7, 3, 5, 7, 6, 0, 1, 0, 0, 1, 8, 5, 8, 7, 1, 1, 2, 4, 2, 6, 7, 5, 7, 8, 1, 2, 5]),
  (15, [3, 5, 5, 2, 7, 1, 3, 6, 7, 8, 8, 0, 0, 5, 0, 0, 9, 2, 9, 3, 5, 5, 6, 2, 1, 3, 3, 7, 8, 9, 0, 6, 2, 5]),
  (15, [1, 7, 7, 6, 3, 5, 6, 8, 3, 9, 4, 0, 0, 2, 5, 0, 4, 6, 4, 6, 7, 7, 8, 1, 0, 6, 6, 8, 9, 4, 5, 3, 1, 2, 5]),
  (16, [8, 8, 8, 1, 7, 8, 4, 1, 9, 7, 0, 0, 1, 2, 5, 2, 3, 2, 3, 3, 8, 9, 0, 5, 3, 3, 4, 4, 7, 2, 6, 5, 6, 2, 5]),
  (16, [4, 4, 4, 0, 8, 9, 2, 0, 9, 8, 5, 0, 0, 6, 2, 6, 1, 6, 1, 6, 9, 4, 5, 2, 6, 6, 7, 2, 3, 6, 3, 2, 8, 1, 2, 5]),
  (16, [2, 2, 2, 0, 4, 4, 6, 0, 4, 9, 2, 5, 0, 3, 1, 3, 0, 8, 0, 8, 4, 7, 2, 6, 3, 3, 3, 6, 1, 8, 1, 6, 4, 0, 6, 2, 5]),
  (16, [1, 1, 1, 0, 2, 2, 3, 0, 2, 4, 6, 2, 5, 1, 5, 6, 5, 4, 0, 4, 2, 3, 6, 3, 1, 6, 6, 8, 0, 9, 0, 8, 2, 0, 3, 1, 2, 5]),
  (17, [5, 5, 5, 1, 1, 1, 5, 1, 2, 3, 1, 2, 5, 7, 8, 2, 7, 0, 2, 1, 1, 8, 1, 5, 8, 3, 4, 0, 4, 5, 4, 1, 0, 1, 5, 6, 2, 5]),
  (17, [2, 7, 7, 5, 5, 5, 7, 5, 6, 1, 5, 6, 2, 8, 9, 1, 3, 5, 1, 0, 5, 9, 0, 7, 9, 1, 7, 0, 2, 2, 7, 0, 5, 0, 7, 8, 1, 2, 5]),
  (17, [1, 3, 8, 7, 7, 7, 8, 7, 8, 0, 7, 8, 1, 4, 4, 5, 6, 7, 5, 5, 2, 9, 5, 3, 9, 5, 8, 5, 1, 1, 3, 5, 2, 5, 3, 9, 0, 6, 2, 5]),
  (18, [6, 9, 3, 8, 8, 9, 3, 9, 0, 3, 9, 0, 7, 2, 2, 8, 3, 7, 7, 6, 4, 7, 6, 9, 7, 9, 2, 5, 5, 6, 7, 6, 2, 6, 9, 5, 3, 1, 2, 5]),
  (18, [3, 4, 6, 9, 4, 4, 6, 9, 5, 1, 9, 5, 3, 6, 1, 4, 1, 8, 8, 8, 2, 3, 8, 4, 8, 9, 6, 2, 7, 8, 3, 8, 1, 3, 4, 7, 6, 5, 6, 2, 5]),
  (18, [1, 7, 3, 4, 7, 2, 3, 4, 7, 5, 9, 7, 6, 8, 0, 7, 0, 9, 4, 4, 1, 1, 9, 2, 4, 4, 8, 1, 3, 9, 1, 9, 0, 6, 7, 3, 8, 2, 8, 1, 2, 5]),
  (19, [8, 6, 7, 3, 6, 1, 7, 3, 7, 9, 8, 8, 4, 0, 3, 5, 4, 7, 2, 0, 5, 9, 6, 2, 2, 4, 0, 6, 9, 5, 9, 5, 3, 3, 6, 9, 1, 4, 0, 6, 2, 5])]

/-- decimal.go:256-266: `prefixIsLessThan(b, s)` -/
def prefixIsLessThan : List Nat → List Nat → Bool
  | _, [] => false
  | [], _ :: _ => true
  | b :: bs, s :: ss => if b ≠ s then b < s else prefixIsLessThan bs ss

/-- decimal.go:280-291: the digits from the right, with carry `n`; returns the digits written (in
order) and the carry left. `List.foldr` visits the last digit first. -/
def lsDigits (W k : Nat) (ds : List Nat) : List Nat × Nat :=
  ds.foldr (fun c s =>
    let n := (s.2 + (c <<< k) % 2 ^ W) % 2 ^ W
    let quo := n / 10
    let rem := n - 10 * quo
    (rem :: s.1, quo)) ([], 0)

/-- decimal.go:294-304: put down extra digits in front of `acc`; `f` is fuel -/
def lsExtra : Nat → Nat → List Nat → Go (List Nat)
  | 0, _, _ => .error .diverge
  | f + 1, n, acc =>
    if n = 0 then .ok acc
    else
      let quo := n / 10
      let rem := n - 10 * quo
      lsExtra f quo (rem :: acc)

/-- decimal.go:269-312: `leftShift(a, k)`. `out` is the list of all the digits put down, from index
`w = nd + delta - len(out)` (the final write index) to `nd + delta - 1`. A negative `w` is an index
panic; for a positive `w` the old digits stay at the indices below `w`. Digits whose index is at least 800
are dropped, and set `trunc` if they are not zero. -/
def leftShift (W : Nat) (a : Decimal) (k : Nat) : Go Decimal := do
  match leftcheats[k]? with
  | none => throw .index
  | some (delta, cutoff) =>
    let delta := if prefixIsLessThan a.d cutoff then delta - 1 else delta
    let (out, n) := lsDigits W k a.d
    let out ← lsExtra (W + 1) n out
    let w : Int := (a.nd : Int) + delta - out.length
    if w < 0 then throw .index
    let all := a.d.take w.toNat ++ out
    let trunc := a.trunc || (all.drop decimalCap).any (· ≠ 0)
    return trim { a with d := all.take decimalCap, dp := a.dp + delta, trunc := trunc }

/-- decimal.go:320-324: the loop of left shifts; `f` is fuel -/
def shiftLeftLoop (W : Nat) : Nat → Decimal → Nat → Go Decimal
  | 0, _, _ => .error .diverge
  | f + 1, a, k =>
    if k > maxShift W then do shiftLeftLoop W f (← leftShift W a (maxShift W)) (k - maxShift W)
    else leftShift W a k

/-- decimal.go:326-330: the loop of right shifts; `k` is the negated shift count; `f` is fuel -/
def shiftRightLoop (W : Nat) : Nat → Decimal → Nat → Go Decimal
  | 0, _, _ => .error .diverge
  | f + 1, a, k =>
    if k > maxShift W then do shiftRightLoop W f (← rightShift W a (maxShift W)) (k - maxShift W)
    else rightShift W a k

/-- decimal.go:315-332: `(*decimal).Shift` -/
def Decimal.shift (W : Nat) (a : Decimal) (k : Int) : Go Decimal :=
  if a.nd = 0 then .ok a
  else if 0 < k then shiftLeftLoop W (k.toNat + 1) a k.toNat
  else if k < 0 then shiftRightLoop W ((-k).toNat + 1) a (-k).toNat
  else .ok a

/-- decimal.go:335-348: `shouldRoundUp(a, nd)` -/
def shouldRoundUp (a : Decimal) (nd : Int) : Bool :=
  if nd < 0 ∨ nd ≥ a.nd then false
  else
    let n := nd.toNat
    if a.d.getD n 0 = 5 ∧ n + 1 = a.nd then
      if a.trunc then true else decide (n > 0) && a.d.getD (n - 1) 0 % 2 != 0
    else a.d.getD n 0 ≥ 5

/-- decimal.go:366-372: `(*decimal).RoundDown` -/
def Decimal.roundDown (a : Decimal) (nd : Int) : Decimal :=
  if nd < 0 ∨ nd ≥ a.nd then a else trim { a with d := a.d.take nd.toNat }

/-- decimal.go:381-388: the loop of `RoundUp` over the first `nd` digits (here: over the list, the last
digit first); `none` if all of them are 9. -/
def roundUpDigits : List Nat → Option (List Nat)
  | [] => none
  | c :: cs =>
    match roundUpDigits cs with
    | some r => some (c :: r)
    | none => if c < 9 then some [c + 1] else none

/-- decimal.go:375-395: `(*decimal).RoundUp` -/
def Decimal.roundUp (a : Decimal) (nd : Int) : Decimal :=
  if nd < 0 ∨ nd ≥ a.nd then a
  else
    match roundUpDigits (a.d.take nd.toNat) with
    | some d => { a with d := d }
    | none => { a with d := [1], dp := a.dp + 1 }

/-- decimal.go:354-363: `(*decimal).Round` -/
def Decimal.round (a : Decimal) (nd : Int) : Decimal :=
  if nd < 0 ∨ nd ≥ a.nd then a
  else if shouldRoundUp a nd then a.roundUp nd else a.roundDown nd

/-- decimal.go:403-410: the digits before the decimal point, `n` digits, padded with zeros, modulo 2^64 -/
def intDigits : Nat → List Nat → Nat → Nat
  | 0, _, acc => acc
  | n + 1, [], acc => intDigits n [] (acc * 10 % 2 ^ 64)
  | n + 1, c :: cs, acc => intDigits n cs ((acc * 10 + c) % 2 ^ 64)

/-- decimal.go:399-415: `(*decimal).RoundedInteger` -/
def Decimal.roundedInteger (a : Decimal) : BitVec 64 :=
  if a.dp > 20 then 0xFFFFFFFFFFFFFFFF
  else BitVec.ofNat 64 (intDigits a.dp.toNat a.d 0 + if shouldRoundUp a a.dp then 1 else 0)

/-- decimal.go:22-59: `(*decimal).String` -/
def Decimal.string (a : Decimal) : Text :=
  if a.nd = 0 then ['0']
  else if a.dp ≤ 0 then ['0', '.'] ++ List.replicate (-a.dp).toNat '0' ++ a.d.map digitChar
  else if a.dp < a.nd then
    (a.d.take a.dp.toNat).map digitChar ++ ['.'] ++ (a.d.drop a.dp.toNat).map digitChar
  else a.d.map digitChar ++ List.replicate (a.dp - a.nd).toNat '0'

end GoFloat.Strconv
