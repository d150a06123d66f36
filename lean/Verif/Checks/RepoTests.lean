import Verif.Model.Float
import Verif.Model.Bfloat
import Verif.Model.Float80x86
import Verif.Model.Binary128
import Verif.Model.Float128ppc
/-
The rows of the tables in the tests of /repo, run on the model. These are tests of the model, not proofs about the code: they
show that the model computes what the authors of the library say the library computes. A float64 in the tables is given by its
bits (`math.NaN()` is 0x7FF8000000000001).
-/
namespace GoFloat.Checks

/-- binary16/binary16_test.go:14-107: bits and the expected float64 -/
def binary16Bits : List (BitVec 16 × F64) := [
  (0x7E00, 0x7FF8000000000001),
  (0xFE00, 0xFFF8000000000001),
  (0x3C00, 0x3FF0000000000000),
  (0x3C01, 0x3FF0040000000000),
  (0xC000, 0xC000000000000000),
  (0x7BFF, 0x40EFFC0000000000),
  (0x0400, 0x3F10000000000000),
  (0x0001, 0x3E70000000000000),
  (0x0000, 0x0000000000000000),
  (0x8000, 0x8000000000000000),
  (0x7C00, 0x7FF0000000000000),
  (0xFC00, 0xFFF0000000000000),
  (0x3555, 0x3FD5540000000000),
  (0x3800, 0x3FE0000000000000),
  (0xB800, 0xBFE0000000000000),
  (0x3E00, 0x3FF8000000000000),
  (0xBE00, 0xBFF8000000000000),
  (0x4100, 0x4004000000000000),
  (0xC100, 0xC004000000000000),
  (0x0010, 0x3EB0000000000000),
  (0x8001, 0xBE70000000000000),
  (0x0001, 0x3E70000000000000),
  (0x0002, 0x3E80000000000000),
  (0x0004, 0x3E90000000000000),
  (0x0008, 0x3EA0000000000000),
  (0x0010, 0x3EB0000000000000),
  (0x0020, 0x3EC0000000000000),
  (0x0040, 0x3ED0000000000000),
  (0x0080, 0x3EE0000000000000),
  (0x0100, 0x3EF0000000000000),
  (0x0200, 0x3F00000000000000),
  (0x0400, 0x3F10000000000000),
  (0x0800, 0x3F20000000000000),
  (0x0C00, 0x3F30000000000000),
  (0x1000, 0x3F40000000000000),
  (0x1400, 0x3F50000000000000),
  (0x1800, 0x3F60000000000000),
  (0x1C00, 0x3F70000000000000),
  (0x2000, 0x3F80000000000000),
  (0x2400, 0x3F90000000000000),
  (0x2800, 0x3FA0000000000000),
  (0x2C00, 0x3FB0000000000000),
  (0x3000, 0x3FC0000000000000),
  (0x3400, 0x3FD0000000000000),
  (0x3800, 0x3FE0000000000000),
  (0x3C00, 0x3FF0000000000000),
  (0x4000, 0x4000000000000000),
  (0x4400, 0x4010000000000000),
  (0x4800, 0x4020000000000000),
  (0x4C00, 0x4030000000000000),
  (0x5000, 0x4040000000000000),
  (0x5400, 0x4050000000000000),
  (0x5800, 0x4060000000000000),
  (0x5C00, 0x4070000000000000),
  (0x6000, 0x4080000000000000),
  (0x6400, 0x4090000000000000),
  (0x6800, 0x40A0000000000000),
  (0x6C00, 0x40B0000000000000),
  (0x7000, 0x40C0000000000000),
  (0x7400, 0x40D0000000000000),
  (0x7800, 0x40E0000000000000)]

/-- The check the test makes for each row. -/
def binary16BitsOk (r : BitVec 16 × F64) : Bool :=
  match (Binary16.newFromBits r.1).float64 with
  | .ok (got, _) => got == r.2
  | .error _ => false

example : binary16Bits.all binary16BitsOk = true := by decide +kernel

/-- binary16/binary16_test.go:127-221: a float64, the expected bits and accuracy -/
def binary16Float64 : List (F64 × BitVec 16 × Accuracy) := [
  (0x7FF8000000000001, 0x7E00, .exact),
  (0xFFF8000000000001, 0xFE00, .exact),
  (0x3FF0000000000000, 0x3C00, .exact),
  (0x3FF0040000000000, 0x3C01, .exact),
  (0xC000000000000000, 0xC000, .exact),
  (0x40EFFC0000000000, 0x7BFF, .exact),
  (0x3F10000000000000, 0x0400, .exact),
  (0x3E70000000000000, 0x0001, .exact),
  (0x0000000000000000, 0x0000, .exact),
  (0x8000000000000000, 0x8000, .exact),
  (0x7FF0000000000000, 0x7C00, .exact),
  (0xFFF0000000000000, 0xFC00, .exact),
  (0x3FD5540000000000, 0x3555, .exact),
  (0x3FE0000000000000, 0x3800, .exact),
  (0xBFE0000000000000, 0xB800, .exact),
  (0x3FF8000000000000, 0x3E00, .exact),
  (0xBFF8000000000000, 0xBE00, .exact),
  (0x4004000000000000, 0x4100, .exact),
  (0xC004000000000000, 0xC100, .exact),
  (0x3EB0000000000000, 0x0010, .exact),
  (0xBE70000000000000, 0x8001, .exact),
  (0x3E60000000000000, 0x0000, .below),
  (0x3E70000000000000, 0x0001, .exact),
  (0x3E80000000000000, 0x0002, .exact),
  (0x3E90000000000000, 0x0004, .exact),
  (0x3EA0000000000000, 0x0008, .exact),
  (0x3EB0000000000000, 0x0010, .exact),
  (0x3EC0000000000000, 0x0020, .exact),
  (0x3ED0000000000000, 0x0040, .exact),
  (0x3EE0000000000000, 0x0080, .exact),
  (0x3EF0000000000000, 0x0100, .exact),
  (0x3F00000000000000, 0x0200, .exact),
  (0x3F10000000000000, 0x0400, .exact),
  (0x3F20000000000000, 0x0800, .exact),
  (0x3F30000000000000, 0x0C00, .exact),
  (0x3F40000000000000, 0x1000, .exact),
  (0x3F50000000000000, 0x1400, .exact),
  (0x3F60000000000000, 0x1800, .exact),
  (0x3F70000000000000, 0x1C00, .exact),
  (0x3F80000000000000, 0x2000, .exact),
  (0x3F90000000000000, 0x2400, .exact),
  (0x3FA0000000000000, 0x2800, .exact),
  (0x3FB0000000000000, 0x2C00, .exact),
  (0x3FC0000000000000, 0x3000, .exact),
  (0x3FD0000000000000, 0x3400, .exact),
  (0x3FE0000000000000, 0x3800, .exact),
  (0x3FF0000000000000, 0x3C00, .exact),
  (0x4000000000000000, 0x4000, .exact),
  (0x4010000000000000, 0x4400, .exact),
  (0x4020000000000000, 0x4800, .exact),
  (0x4030000000000000, 0x4C00, .exact),
  (0x4040000000000000, 0x5000, .exact),
  (0x4050000000000000, 0x5400, .exact),
  (0x4060000000000000, 0x5800, .exact),
  (0x4070000000000000, 0x5C00, .exact),
  (0x4080000000000000, 0x6000, .exact),
  (0x4090000000000000, 0x6400, .exact),
  (0x40A0000000000000, 0x6800, .exact),
  (0x40B0000000000000, 0x6C00, .exact),
  (0x40C0000000000000, 0x7000, .exact),
  (0x40D0000000000000, 0x7400, .exact),
  (0x40E0000000000000, 0x7800, .exact)]

/-- The check the test makes for each row. -/
def binary16Float64Ok (r : F64 × BitVec 16 × Accuracy) : Bool :=
  match Binary16.newFromFloat64 r.1 with
  | .ok (f, acc) => f.bitsOf == r.2.1 && acc == r.2.2
  | .error _ => false

example : binary16Float64.all binary16Float64Ok = true := by decide +kernel

/-- bfloat/bfloat_test.go:13-32: bits and the expected float64 -/
def bfloatBits : List (BitVec 16 × F64) := [
  (0, 0x0000000000000000),
  (0x8000, 0x8000000000000000),
  (0x7f80, 0x7FF0000000000000),
  (0xff80, 0xFFF0000000000000),
  (0x7f81, 0x7FF8000000000001),
  (0xff81, 0xFFF8000000000001),
  (0x3f80, 0x3FF0000000000000),
  (0xc000, 0xC000000000000000),
  (0x4049, 0x4009200000000000),
  (0x3eab, 0x3FD5600000000000)]

/-- The check the test makes for each row. -/
def bfloatBitsOk (r : BitVec 16 × F64) : Bool :=
  match (Bfloat.newFromBits r.1).big with
  | .ok (b, isNaN) => isNaN || b.float64.1 == r.2
  | .error _ => false

example : bfloatBits.all bfloatBitsOk = true := by decide +kernel

/-- float80x86/float80x86_test.go:15-46: bits and the expected float64 -/
def float80x86Bits : List (BitVec 16 × BitVec 64 × F64) := [
  (0x7FFF, 0xBFFFFFFFFFFFFFFF, 0x7FF8000000000001),
  (0xFFFF, 0xBFFFFFFFFFFFFFFF, 0xFFF8000000000001),
  (0x0000, 0x0000000000000000, 0x0000000000000000),
  (0x8000, 0x0000000000000000, 0x8000000000000000),
  (0x3FFF, 0x8000000000000000, 0x3FF0000000000000),
  (0x4000, 0x8000000000000000, 0x4000000000000000),
  (0x7FFF, 0x8000000000000000, 0x7FF0000000000000),
  (0xFFFF, 0x8000000000000000, 0xFFF0000000000000)]

/-- The check the test makes for each row. -/
def float80x86BitsOk (r : BitVec 16 × BitVec 64 × F64) : Bool :=
  match (Float80x86.newFromBits r.1 r.2.1).float64 with
  | .ok (got, _) => got == r.2.2
  | .error _ => false

example : float80x86Bits.all float80x86BitsOk = true := by decide +kernel

/-- float80x86/float80x86_test.go:67-98: a float64, the expected bits and accuracy -/
def float80x86Float64 : List (F64 × BitVec 16 × BitVec 64 × Accuracy) := [
  (0x7FF8000000000001, 0x7FFF, 0xBFFFFFFFFFFFFFFF, .exact),
  (0xFFF8000000000001, 0xFFFF, 0xBFFFFFFFFFFFFFFF, .exact),
  (0x0000000000000000, 0x0000, 0x0000000000000000, .exact),
  (0x8000000000000000, 0x8000, 0x0000000000000000, .exact),
  (0x3FF0000000000000, 0x3FFF, 0x8000000000000000, .exact),
  (0x4000000000000000, 0x4000, 0x8000000000000000, .exact),
  (0x7FF0000000000000, 0x7FFF, 0x8000000000000000, .exact),
  (0xFFF0000000000000, 0xFFFF, 0x8000000000000000, .exact)]

/-- The check the test makes for each row. -/
def float80x86Float64Ok (r : F64 × BitVec 16 × BitVec 64 × Accuracy) : Bool :=
  match Float80x86.newFromFloat64 r.1 with
  | .ok (f, acc) => f.bitsOf == (r.2.1, r.2.2.1) && acc == r.2.2.2
  | .error _ => false

example : float80x86Float64.all float80x86Float64Ok = true := by decide +kernel

/-- binary128/binary128_test.go:92-124: a float64, the expected bits and accuracy -/
def binary128Float64 : List (F64 × BitVec 64 × BitVec 64 × Accuracy) := [
  (0x7FF8000000000001, 0x7FFF800000000000, 0x0000000000000000, .exact),
  (0xFFF8000000000001, 0xFFFF800000000000, 0x0000000000000000, .exact),
  (0x7FF0000000000000, 0x7FFF000000000000, 0x0000000000000000, .exact),
  (0xFFF0000000000000, 0xFFFF000000000000, 0x0000000000000000, .exact),
  (0x0000000000000000, 0x0000000000000000, 0x0000000000000000, .exact),
  (0x8000000000000000, 0x8000000000000000, 0x0000000000000000, .exact),
  (0x3FF0000000000000, 0x3FFF000000000000, 0x0000000000000000, .exact),
  (0xC000000000000000, 0xC000000000000000, 0x0000000000000000, .exact),
  (0x400921FB54442D18, 0x4000921FB54442D1, 0x8469898CC51701B8, .exact),
  (0x3FD5555555555555, 0x3FFD555555555555, 0x5555555555555555, .exact)]

/-- The check the test makes for each row. -/
def binary128Float64Ok (r : F64 × BitVec 64 × BitVec 64 × Accuracy) : Bool :=
  match Binary128.newFromFloat64 r.1 with
  | .ok (f, acc) => f.bitsOf.1 == r.2.1 && (f.bitsOf.2 &&& 0xF000000000000000) == (r.2.2.1 &&& 0xF000000000000000) && acc == r.2.2.2
  | .error _ => false

example : binary128Float64.all binary128Float64Ok = true := by decide +kernel

/-- binary128/binary128_test.go:21-72: bits and the expected `big.Float`, given by its form, its sign, and for a finite number an odd
mantissa and the exponent for which the number is `0.mantissa * 2^exponent`, and whether it is a NaN. (`Cmp` does not see the sign of a zero.) -/
def binary128Bits : List (BitVec 64 × BitVec 64 × Form × Bool × Nat × Int × Bool) := [
  (0x7FFF800000000000, 0x0000000000000001, .zero, false, 0, 0, true),
  (0xFFFF800000000000, 0x0000000000000000, .zero, false, 0, 0, true),
  (0x7FFF000000000000, 0x0000000000000000, .inf, false, 0, 0, false),
  (0xFFFF000000000000, 0x0000000000000000, .inf, true, 0, 0, false),
  (0x0000000000000000, 0x0000000000000000, .zero, false, 0, 0, false),
  (0x8000000000000000, 0x0000000000000000, .zero, false, 0, 0, false),
  (0x0000000000000000, 0x0000000000000001, .finite, false, 1, -16493, false),
  (0x0000FFFFFFFFFFFF, 0xFFFFFFFFFFFFFFFF, .finite, false, 5192296858534827628530496329220095, -16382, false),
  (0x0001000000000000, 0x0000000000000000, .finite, false, 1, -16381, false),
  (0x7FFEFFFFFFFFFFFF, 0xFFFFFFFFFFFFFFFF, .finite, false, 10384593717069655257060992658440191, 16384, false),
  (0x3FFEFFFFFFFFFFFF, 0xFFFFFFFFFFFFFFFF, .finite, false, 10384593717069655257060992658440191, 0, false),
  (0x3FFF000000000000, 0x0000000000000000, .finite, false, 1, 1, false),
  (0x3FFF000000000000, 0x0000000000000001, .finite, false, 5192296858534827628530496329220097, 1, false),
  (0xC000000000000000, 0x0000000000000000, .finite, true, 1, 2, false),
  (0x4000921FB54442D1, 0x8469898CC51701B8, .finite, false, 1019505104126898525104217885171767, 2, false),
  (0x3FFD555555555555, 0x5555555555555555, .finite, false, 6923062478046436838040661772293461, -1, false)]

/-- The check the test makes for each row. -/
def binary128BitsOk (r : BitVec 64 × BitVec 64 × Form × Bool × Nat × Int × Bool) : Bool :=
  match (Binary128.newFromBits r.1 r.2.1).big with
  | .ok (x, nan) =>
    let want : BigFloat := ⟨113, .toNearestEven, .exact, r.2.2.1, r.2.2.2.1, r.2.2.2.2.1, r.2.2.2.2.2.1⟩
    want.cmp x == .eq && nan == r.2.2.2.2.2.2
  | .error _ => false

example : binary128Bits.all binary128BitsOk = true := by decide +kernel

/-- float128ppc/float128ppc_test.go:12-25: pairs that survive `Big` and `NewFromBig`,
without line 16, which does not survive (`C62_float128ppc_test_row`) -/
def float128ppcRoundTrip : List (BitVec 64 × BitVec 64) := [
  (0x0000000000000000, 0x0000000000000000),
  (0x3DF0000000000000, 0x0000000000000000),
  (0x3FF0000000000000, 0x0000000000000000),
  (0x4000000000000000, 0x0000000000000000),
  (0x400F000000000000, 0xBCB0000000000000),
  (0x403B000000000000, 0x0000000000000000),
  (0x405EDA5E353F7CEE, 0x0000000000000000),
  (0x4093B40000000000, 0x0000000000000000),
  (0x41F0000000000000, 0x0000000000000000),
  (0x4D436562A0416DE0, 0x0000000000000000),
  (0x8000000000000000, 0x0000000000000000),
  (0x818F2887B9295809, 0x800000000032D000),
  (0xC00547AE147AE148, 0x3CA47AE147AE147A)]

/-- The check the test makes for each row. -/
def float128ppcRoundTripOk (r : BitVec 64 × BitVec 64) : Bool :=
  match (Float128ppc.newFromBits r.1 r.2).big with
  | .ok (x, _) =>
    match Float128ppc.newFromBig x with
    | .ok ((f, acc), _) => f.bitsOf == r && acc == .exact
    | .error _ => false
  | .error _ => false

example : float128ppcRoundTrip.all float128ppcRoundTripOk = true := by decide +kernel

end GoFloat.Checks
