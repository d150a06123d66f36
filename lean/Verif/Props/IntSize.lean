import Verif.Proofs.Sample
import Verif.Proofs.MaxPrec
/-
C78 and C79: where the size of `int` and `uint` shows, and where it does not.

`appendFloatI`, `formatFloatI`, `newFromBigI` and `newFromFloat64I` are the functions with an `int` of `W` bits that wraps
around (Verif/Model/IntSize.lean). The functions without the suffix compute with unbounded integers; the other properties are
about them, and C78 carries these over to the machine.
-/
namespace GoFloat
open Spec

namespace Strconv

section
variable {W : ℕ} (hW : W = 32 ∨ W = 64) {prec : ℤ} (hp : prec ≤ maxInt W) {fmt : Char} (hf : fmt = 'e' ∨ fmt = 'E' → prec < maxInt W)
include hW hp hf

/-- C78: `AppendFloat` computes with `int`s of 32 or 64 bits what it would compute with unbounded integers, for every value, format, precision
and size, except for `e` and `E` with the largest `int` as precision. -/
theorem C78_append (dst : Text) (val : F64) (size : ℤ) : appendFloatI W dst val fmt prec size = appendFloat W dst val fmt prec size := by
  unfold appendFloatI appendFloat
  rw [genericFtoaI_eq hW true val ⟨hp, hf⟩]

/-- C78: `FormatFloat` first allocates a buffer of `prec + 4` bytes, if these are more than 24. It panics exactly if that is more than can be
allocated, unless `prec + 4` does not fit an `int`: then it makes do with 24 bytes. If it does not panic there, it prints what it would print with
unbounded integers. -/
theorem C78_format (hp' : minInt W ≤ prec) {maxAlloc : ℕ} (ha : 24 ≤ maxAlloc) (val : F64) (size : ℤ) :
    formatFloatI W maxAlloc val fmt prec size =
      if prec + 4 ≤ maxInt W ∧ (maxAlloc : ℤ) < prec + 4 then .error .makeslice else formatFloat W val fmt prec size := by
  have hM : (2147483647 : ℤ) ≤ maxInt W := by simp only [maxInt]; rcases hW with rfl | rfl <;> norm_num
  have hM2 : minInt W ≤ -4000000 := by simp only [minInt]; rcases hW with rfl | rfl <;> norm_num
  unfold formatFloatI makeBytes formatFloat
  rw [genericFtoaI_eq hW true val ⟨hp, hf⟩]
  have hw : (max (wrap W (prec + 4)) 24 < 0 ∨ max (wrap W (prec + 4)) 24 > (maxAlloc : ℤ)) ↔ prec + 4 ≤ maxInt W ∧ (maxAlloc : ℤ) < prec + 4 := by
    by_cases h4 : prec + 4 ≤ maxInt W
    · rw [wrap_range hW (by omega) h4]
      omega
    · have := wrap_over hW (i := prec + 4) (by omega) (by omega)
      omega
  by_cases h : prec + 4 ≤ maxInt W ∧ (maxAlloc : ℤ) < prec + 4
  · rw [if_pos h, if_pos (hw.2 h)]
    rfl
  · rw [if_neg h, if_neg (fun h' => h (hw.1 h'))]
    cases genericFtoa W true val fmt prec size with
    | error e => rfl
    | ok t => rfl

example := C78_format (W := 32) (fmt := 'f') (prec := 40) (.inl rfl) (by norm_num [maxInt]) (by simp) (by norm_num [minInt]) (maxAlloc := 100) (by norm_num) 0xBFF6000000000000 64
end

/-- C78: with the largest `int` as precision, `e` and `E` panic for every number but zero: `prec + 1` wraps around to the smallest `int`, which
passes for a small number of digits. -/
theorem C78_largest {W : ℕ} (hW : W = 32 ∨ W = 64) {F : Format} {size : ℤ} (hS : SizeOf F size) {c : ℕ} {s : Bool} {m : ℚ} {val : F64}
    (hc : F.decode c = .num s m) (hd : double.decode val.toNat = .num s m) (hm : m ≠ 0) {fmt : Char} (hf : fmt = 'e' ∨ fmt = 'E') (dst : Text) :
    appendFloatI W dst val fmt (maxInt W) size = .error .index := by
  unfold appendFloatI
  rw [maxPrec_index hW hS hc hd hm hf]
  rfl

-- concrete cases
example : maxInt 32 = 2147483647 ∧ minInt 32 = -2147483648 ∧ maxInt 64 = 9223372036854775807 := by decide
example : appendFloatI 32 ['x'] 0x3FF8000000000000 'e' 3 64 = .ok "x1.500e+00".toList := by decide +kernel
example : formatFloatI 32 24 0x3FF8000000000000 'g' 2147483647 64 = .ok "1.5".toList ∧
    formatFloatI 32 24 0x3FF8000000000000 'g' 21 64 = .error .makeslice ∧ formatFloatI 32 25 0x3FF8000000000000 'g' 21 64 = .ok "1.5".toList := by
  decide +kernel
example : appendFloatI 32 [] 0x3FF8000000000000 'e' 2147483647 64 = .error .index ∧
    appendFloatI 64 [] 0x3FF8000000000000 'E' 9223372036854775807 32 = .error .index := by decide +kernel
example : double.decode (0x3FF8000000000000 : F64).toNat = .num false (3 / 2) := by
  show double.decode 0x3FF8000000000000 = _
  norm_num [double, Format.decode, Format.bias]

/-! ### 32 and 64 bits -/

/-- C79: `FormatFloat` and `AppendFloat` print the same text, or panic with the same message, on a 32-bit and on a 64-bit machine. -/
theorem C79_format (val : F64) (fmt : Char) (prec size : ℤ) : formatFloat 32 val fmt prec size = formatFloat 64 val fmt prec size :=
  genericFtoa_size (Or.inl rfl) (Or.inr rfl) true val fmt prec size

/-- C79: the same with the `int`s of the two machines, for every precision that is an `int` on both; the largest 32-bit one is excepted for `e`
and `E`, see `C78_largest`. -/
theorem C79_append (dst : Text) (val : F64) {fmt : Char} {prec : ℤ} (hp : prec ≤ maxInt 32) (hf : fmt = 'e' ∨ fmt = 'E' → prec < maxInt 32) (size : ℤ) :
    appendFloatI 32 dst val fmt prec size = appendFloatI 64 dst val fmt prec size := by
  have h1 : maxInt 32 = 2147483647 := by decide
  have h2 : maxInt 64 = 9223372036854775807 := by decide
  rw [C78_append (Or.inl rfl) hp hf, C78_append (Or.inr rfl) (by omega) (fun h => by have := hf h; omega)]
  unfold appendFloat
  rw [genericFtoa_size (Or.inl rfl) (Or.inr rfl) true val fmt prec size]

example := C79_append "x = ".toList 0xBFF6000000000000 (fmt := 'e') (prec := 40) (by norm_num [maxInt]) (fun _ => by norm_num [maxInt]) 64

/-- C79: `FormatInt` and `FormatUint` print the same on both, in every base. -/
theorem C79_int (i : BitVec 64) (base : ℤ) : formatInt 32 i base = formatInt 64 i base ∧ formatUint 32 i base = formatUint 64 i base := by
  unfold formatInt formatUint
  rw [formatBits_size (Or.inl rfl) (Or.inr rfl) i base, formatBits_size (Or.inl rfl) (Or.inr rfl) i base]
  exact ⟨rfl, rfl⟩

/-- C79: `Itoa` prints the same for an `int` that both machines have. -/
theorem C79_itoa (i : BitVec 32) : itoa 32 i = itoa 64 (i.signExtend 64) := by
  unfold itoa
  rw [(C79_int _ 10).1]
  congr 1
  simp

/-- C79: `AppendInt` and `AppendUint`, likewise. -/
theorem C79_appendInt (dst : Text) (i : BitVec 64) (base : ℤ) : appendInt 32 dst i base = appendInt 64 dst i base ∧
    appendUint 32 dst i base = appendUint 64 dst i base := by
  unfold appendInt appendUint
  rw [formatBits_size (Or.inl rfl) (Or.inr rfl) i base, formatBits_size (Or.inl rfl) (Or.inr rfl) i base]
  exact ⟨rfl, rfl⟩

-- concrete cases: the two machines take different steps
example : (Decimal.new.assign 1).shift 32 100 = (Decimal.new.assign 1).shift 64 100 ∧ maxShift 32 = 28 ∧ maxShift 64 = 60 := by decide +kernel
example : formatFloat 32 0x0000000000000001 'e' 20 64 = .ok "4.94065645841246544177e-324".toList := by decide +kernel
example : itoa 32 (-2147483648) = .ok "-2147483648".toList := by decide +kernel

end Strconv

/-! ### the constructors -/

namespace Binary16

/-- C78: `NewFromBig` of binary16 computes what it would compute with unbounded integers, on 64 bits for every number, and on 32 bits up to the
exponent `2^31 - 15`. -/
theorem C78_binary16_big {W : ℕ} (hW : W = 32 ∨ W = 64) {x : BigFloat} (hx : x.WF) (h : W = 32 → x.form = .finite → x.exp ≤ 2147483633) :
    newFromBigI W x = newFromBig x := by
  refine newFromBigI_eq hW fun hf => ?_
  have h1 := hx.exp_ge hf
  have h2 := hx.exp_le hf
  unfold BigFloat.MinExp at h1
  unfold BigFloat.MaxExp at h2
  exact ⟨by omega, by omega, fun h32 => by have := h h32 hf; omega⟩

example := C78_binary16_big (W := 32) (.inl rfl) Sample.x_wf (fun _ _ => by decide)

/-- C78: `NewFromFloat64`, on both. -/
theorem C78_binary16_float64 {W : ℕ} (hW : W = 32 ∨ W = 64) (x : F64) : newFromFloat64I W x = newFromFloat64 x := newFromFloat64I_eq hW x

end Binary16

namespace Binary128

/-- C78: `NewFromBig` of binary128, likewise, on 32 bits up to the exponent `2^31 - 16383`. -/
theorem C78_binary128_big {W : ℕ} (hW : W = 32 ∨ W = 64) {x : BigFloat} (hx : x.WF) (h : W = 32 → x.form = .finite → x.exp ≤ 2147467265) :
    newFromBigI W x = newFromBig x := by
  refine newFromBigI_eq hW fun hf => ?_
  have h1 := hx.exp_ge hf
  have h2 := hx.exp_le hf
  unfold BigFloat.MinExp at h1
  unfold BigFloat.MaxExp at h2
  exact ⟨by omega, by omega, fun h32 => by have := h h32 hf; omega⟩

example := C78_binary128_big (W := 32) (.inl rfl) Sample.x_wf (fun _ _ => by decide)

/-- C78: `NewFromFloat64`, on both. -/
theorem C78_binary128_float64 {W : ℕ} (hW : W = 32 ∨ W = 64) (x : F64) : newFromFloat64I W x = newFromFloat64 x := newFromFloat64I_eq hW x

end Binary128

namespace Float80x86

/-- C78: `NewFromBig` of the x86 format, likewise. -/
theorem C78_float80x86_big {W : ℕ} (hW : W = 32 ∨ W = 64) {x : BigFloat} (hx : x.WF) (h : W = 32 → x.form = .finite → x.exp ≤ 2147467265) :
    newFromBigI W x = newFromBig x := by
  refine newFromBigI_eq hW fun hf => ?_
  have h1 := hx.exp_ge hf
  have h2 := hx.exp_le hf
  unfold BigFloat.MinExp at h1
  unfold BigFloat.MaxExp at h2
  exact ⟨by omega, by omega, fun h32 => by have := h h32 hf; omega⟩

example := C78_float80x86_big (W := 32) (.inl rfl) Sample.x_wf (fun _ _ => by decide)

/-- C78: `NewFromFloat64`, on both. -/
theorem C78_float80x86_float64 {W : ℕ} (hW : W = 32 ∨ W = 64) (x : F64) : newFromFloat64I W x = newFromFloat64 x := newFromFloat64I_eq hW x

end Float80x86

/-- `2^k` of precision 53, for `0 ≤ k < 2^31 - 1`. -/
def powerOfTwo (k : ℤ) : BigFloat := { BigFloat.new with prec := 53, form := .finite, mant := 1, exp := k + 1 }

theorem powerOfTwo_wf {k : ℤ} (h1 : 0 ≤ k) (h2 : k < 2147483647) : (powerOfTwo k).WF :=
  ⟨by show 53 ≤ BigFloat.MaxPrec; decide, fun _ => by show 0 < 1; decide, fun _ => by show BigFloat.MinExp ≤ k + 1; unfold BigFloat.MinExp; omega,
    fun _ => by show k + 1 ≤ BigFloat.MaxExp; unfold BigFloat.MaxExp; omega, fun _ => by show 1 ≤ 53; decide,
    fun _ => ⟨1, 0, rfl, by show 1 < 2 ^ 53; decide⟩⟩

/-- C78: the limits for 32 bits are exact. At the next exponent `exponent - 1 + bias` wraps around to a negative number, and a number that is far
too large is taken for one that is far too small. On 64 bits the same number is handled as with unbounded integers. -/
theorem C78_false_big32 :
    ((powerOfTwo 2147483633).exp = 2147483634 ∧ Binary16.newFromBigI 32 (powerOfTwo 2147483633) = .ok (Binary16.Zero, .below) ∧
      Binary16.newFromBig (powerOfTwo 2147483633) = .ok (Binary16.Zero, .above)) ∧
    ((powerOfTwo 2147467265).exp = 2147467266 ∧ Binary128.newFromBigI 32 (powerOfTwo 2147467265) = .ok (Binary128.Zero, .below) ∧
      Binary128.newFromBig (powerOfTwo 2147467265) = .ok (Binary128.Zero, .above)) ∧
    ((powerOfTwo 2147467265).exp = 2147467266 ∧ Float80x86.newFromBigI 32 (powerOfTwo 2147467265) = .ok (⟨0, 0x7FFFFFFFFFFFFFFF⟩, .below) ∧
      Float80x86.newFromBig (powerOfTwo 2147467265) = .ok (⟨0, 0x8000000000000000⟩, .above)) := by
  decide +kernel

-- concrete cases
example : (powerOfTwo 2147483633).WF ∧ (powerOfTwo 2147467265).WF := ⟨powerOfTwo_wf (by decide) (by decide), powerOfTwo_wf (by decide) (by decide)⟩
example : Binary16.newFromBigI 32 (powerOfTwo 3) = .ok (⟨0x4800⟩, .exact) ∧ Binary128.newFromBigI 64 (powerOfTwo 3) = .ok (⟨0x4002000000000000, 0⟩, .exact) := by
  decide +kernel

end GoFloat
