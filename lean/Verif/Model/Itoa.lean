import Verif.Model.Text
/-
Model of /repo/internal/strconv/itoa.go, function by function.
A string or byte slice is its list of bytes, each written as the character with that code.
-/
namespace GoFloat.Strconv

/-- itoa.go:81: the constant `digits`, 36 characters -/
def digits : Text :=
  ['0','1','2','3','4','5','6','7','8','9','a','b','c','d','e','f','g','h','i','j','k','l','m','n','o','p',
   'q','r','s','t','u','v','w','x','y','z']

/-- itoa.go:68-77: the constant `smallsString`, 200 characters -/
def smallsString : Text :=
  ['0','0','0','1','0','2','0','3','0','4','0','5','0','6','0','7','0','8','0','9',
   '1','0','1','1','1','2','1','3','1','4','1','5','1','6','1','7','1','8','1','9',
   '2','0','2','1','2','2','2','3','2','4','2','5','2','6','2','7','2','8','2','9',
   '3','0','3','1','3','2','3','3','3','4','3','5','3','6','3','7','3','8','3','9',
   '4','0','4','1','4','2','4','3','4','4','4','5','4','6','4','7','4','8','4','9',
   '5','0','5','1','5','2','5','3','5','4','5','5','5','6','5','7','5','8','5','9',
   '6','0','6','1','6','2','6','3','6','4','6','5','6','6','6','7','6','8','6','9',
   '7','0','7','1','7','2','7','3','7','4','7','5','7','6','7','7','7','8','7','9',
   '8','0','8','1','8','2','8','3','8','4','8','5','8','6','8','7','8','8','8','9',
   '9','0','9','1','9','2','9','3','9','4','9','5','9','6','9','7','9','8','9','9']

/-- Index into a string, with Go's bounds check. -/
def charAt (s : Text) (i : Nat) : Go Char :=
  match s[i]? with
  | some c => .ok c
  | none => .error .index

/-- itoa.go:66 -/
def nSmalls : Nat := 100

/-- itoa.go:59-64: `small(i)`; a slice `s[i:j]` is a bounds-checked pair of characters -/
def small (i : Nat) : Go Text :=
  if i < 10 then do return [← charAt digits i]
  else do return [← charAt smallsString (i * 2), ← charAt smallsString (i * 2 + 1)]

/-- One store `i--; a[i] = c` into the array `a` of 65 bytes (itoa.go:95-96); the written part `a[i:]`
is the list `acc`, so `i = 65 - acc.length`. -/
def push (c : Char) (acc : Text) : Go Text := if acc.length < 65 then .ok (c :: acc) else .error .index

/-- itoa.go:117-123, 137-143: `is := us % 100 * 2; us /= 100; i -= 2; a[i+1] = ...; a[i+0] = ...` -/
def pushPair (us : Nat) (acc : Text) : Go Text := do
  let is := us % 100 * 2
  let acc ← push (← charAt smallsString (is + 1)) acc
  push (← charAt smallsString is) acc

/-- itoa.go:117-123: the loop of `n` pairs; returns the rest of `us` -/
def pairs : Nat → Nat → Text → Go (Nat × Text)
  | 0, us, acc => .ok (us, acc)
  | n + 1, us, acc => do pairs n (us / 100) (← pushPair us acc)

/-- itoa.go:111-131: the loop for 32-bit hosts; `f` is fuel -/
def loop32 : Nat → Nat → Text → Go (Nat × Text)
  | 0, _, _ => .error .diverge
  | f + 1, u, acc =>
    if u ≥ 1000000000 then do
      let q := u / 1000000000
      let us := u - q * 1000000000
      let (us, acc) ← pairs 4 us acc
      let acc ← push (← charAt smallsString (us * 2 + 1)) acc
      loop32 f q acc
    else .ok (u, acc)

/-- itoa.go:137-152: the loop for two digits at a time and the last one or two digits; `f` is fuel -/
def loop10 : Nat → Nat → Text → Go Text
  | 0, _, _ => .error .diverge
  | f + 1, us, acc =>
    if us ≥ 100 then do loop10 f (us / 100) (← pushPair us acc)
    else do
      let is := us * 2
      let acc ← push (← charAt smallsString (is + 1)) acc
      if us ≥ 10 then push (← charAt smallsString is) acc else return acc

/-- itoa.go:165-172: power-of-two bases; `uint` has `W` bits; `f` is fuel -/
def loopPow2 (W b m shift : Nat) : Nat → Nat → Text → Go Text
  | 0, _, _ => .error .diverge
  | f + 1, u, acc =>
    if u ≥ b then do loopPow2 W b m shift f (u >>> shift) (← push (← charAt digits ((u % 2 ^ W) &&& m)) acc)
    else do push (← charAt digits (u % 2 ^ W)) acc

/-- itoa.go:176-187: other bases; `uint` has `W` bits; `f` is fuel -/
def loopGen (W b : Nat) : Nat → Nat → Text → Go Text
  | 0, _, _ => .error .diverge
  | f + 1, u, acc =>
    if u ≥ b then do
      let q := u / b
      loopGen W b f q (← push (← charAt digits ((u - q * b) % 2 ^ W)) acc)
    else do push (← charAt digits (u % 2 ^ W)) acc

/-- itoa.go:204-206: `x&(x-1) == 0`, called only with `x ≥ 2` -/
def isPowerOfTwo (x : Nat) : Bool := x &&& (x - 1) == 0

/-- itoa.go:89-202: `formatBits`, the text it produces (the two ways of returning it differ only in
appending to `dst`, see `appendInt` and `appendUint`). `W` is the size of `uint` in bits, 32 or 64;
`host32bit` (itoa.go:79) is `W = 32`. -/
def formatBits (W : Nat) (u : BitVec 64) (base : Int) (neg : Bool) : Go Text := do
  if base < 2 ∨ base > digits.length then throw .illegalBase
  let b := base.toNat
  let u := (if neg then -u else u).toNat
  let acc ←
    if base = 10 then do
      let (u, acc) ← if W = 32 then loop32 65 u [] else pure (u, [])
      loop10 65 (u % 2 ^ W) acc
    else if isPowerOfTwo b then loopPow2 W b (b - 1) (ntz b &&& 7) 65 u []
    else loopGen W b 65 u []
  if neg then push '-' acc else return acc

/-- itoa.go:14-20 -/
def formatUint (W : Nat) (i : BitVec 64) (base : Int) : Go Text :=
  if i.toNat < nSmalls ∧ base = 10 then small i.toNat else formatBits W i base false

/-- itoa.go:25-31 -/
def formatInt (W : Nat) (i : BitVec 64) (base : Int) : Go Text :=
  if 0 ≤ i.toInt ∧ i.toInt < nSmalls ∧ base = 10 then small i.toInt.toNat
  else formatBits W i base (i.toInt < 0)

/-- itoa.go:34-36: an `int` is sign-extended to `int64` -/
def itoa (W : Nat) (i : BitVec W) : Go Text := formatInt W (i.signExtend 64) 10

/-- itoa.go:40-46 -/
def appendInt (W : Nat) (dst : Text) (i : BitVec 64) (base : Int) : Go Text := do
  if 0 ≤ i.toInt ∧ i.toInt < nSmalls ∧ base = 10 then return dst ++ (← small i.toInt.toNat)
  return dst ++ (← formatBits W i base (i.toInt < 0))

/-- itoa.go:50-56 -/
def appendUint (W : Nat) (dst : Text) (i : BitVec 64) (base : Int) : Go Text := do
  if i.toNat < nSmalls ∧ base = 10 then return dst ++ (← small i.toNat)
  return dst ++ (← formatBits W i base false)

end GoFloat.Strconv
