import Verif.Spec.ExtValue
import Verif.Model.ExtFloat
import Verif.Proofs.Bits
import Mathlib.Algebra.Order.Field.Power
import Mathlib.Tactic.Linarith
import Mathlib.Tactic.FieldSimp
/-
The arithmetic of internal/strconv/extfloat.go: normalisation, multiplication, the tables of powers of ten.
-/
namespace GoFloat.Strconv

/-- `Normalize` keeps the value and puts the leading bit in place. -/
theorem normalize_spec (f : ExtFloat) (h : f.mant ≠ 0) :
    f.normalize.1.val = f.val ∧ 2 ^ 63 ≤ f.normalize.1.mant.toNat ∧ f.normalize.1.neg = f.neg ∧
      f.normalize.1.exp = f.exp - f.normalize.2 ∧ f.normalize.1.mant.toNat = f.mant.toNat * 2 ^ f.normalize.2 ∧
      f.normalize.2 = 64 - bitLen f.mant.toNat ∧ bitLen f.mant.toNat ≤ 64 := by
  have hpos : 0 < f.mant.toNat := by
    rcases Nat.eq_zero_or_pos f.mant.toNat with h0 | h0
    · exact absurd (BitVec.eq_of_toNat_eq (by simpa using h0)) h
    · exact h0
  have hle : bitLen f.mant.toNat ≤ 64 := bitLen_le_of_lt f.mant.isLt
  have h1 := bitLen_pos hpos
  have hm : (f.mant <<< (64 - bitLen f.mant.toNat)).toNat = f.mant.toNat * 2 ^ (64 - bitLen f.mant.toNat) := by
    rw [BitVec.toNat_shiftLeft, Nat.shiftLeft_eq]
    apply Nat.mod_eq_of_lt
    calc f.mant.toNat * 2 ^ (64 - bitLen f.mant.toNat) < 2 ^ bitLen f.mant.toNat * 2 ^ (64 - bitLen f.mant.toNat) :=
          Nat.mul_lt_mul_of_pos_right (lt_two_pow_bitLen _) (Nat.two_pow_pos _)
      _ = 2 ^ 64 := by rw [← pow_add]; congr 1; omega
  unfold ExtFloat.normalize
  rw [if_neg h]
  simp only
  refine ⟨?_, ?_, trivial, trivial, hm, trivial, hle⟩
  · unfold ExtFloat.val
    simp only
    rw [hm]
    push_cast
    rw [mul_assoc, ← zpow_natCast (2 : ℚ) (64 - _), ← zpow_add₀ (by norm_num)]
    congr 2
    ring
  · rw [hm]
    calc 2 ^ 63 = 2 ^ (bitLen f.mant.toNat - 1) * 2 ^ (64 - bitLen f.mant.toNat) := by rw [← pow_add]; congr 1; omega
      _ ≤ f.mant.toNat * 2 ^ (64 - bitLen f.mant.toNat) := Nat.mul_le_mul_right _ (two_pow_le_of_pos hpos)

theorem lo32_toNat (x : BitVec 64) : (lo32 x).toNat = x.toNat % 2 ^ 32 := by
  unfold lo32
  rw [BitVec.toNat_setWidth, BitVec.toNat_setWidth]
  exact Nat.mod_eq_of_lt (lt_of_lt_of_le (Nat.mod_lt _ (by norm_num)) (by norm_num))

/-- `Multiply` rounds the upper half of the product, half up. -/
theorem multiply_mant (f g : ExtFloat) :
    (f.multiply g).mant.toNat = (f.mant.toNat * g.mant.toNat + 2 ^ 63) / 2 ^ 64 := by
  unfold ExtFloat.multiply
  simp only
  have hf := f.mant.isLt
  have hg := g.mant.isLt
  set a := f.mant.toNat with ha
  set b := g.mant.toNat with hb
  have hfh : (f.mant >>> 32).toNat = a / 2 ^ 32 := by rw [BitVec.toNat_ushiftRight, Nat.shiftRight_eq_div_pow]
  have hgh : (g.mant >>> 32).toNat = b / 2 ^ 32 := by rw [BitVec.toNat_ushiftRight, Nat.shiftRight_eq_div_pow]
  have hfl := lo32_toNat f.mant
  have hgl := lo32_toNat g.mant
  rw [← ha] at hfl
  rw [← hb] at hgl
  set ah := a / 2 ^ 32 with hah
  set al := a % 2 ^ 32 with hal
  set bh := b / 2 ^ 32 with hbh
  set bl := b % 2 ^ 32 with hbl
  have hah1 : ah ≤ 2 ^ 32 - 1 := by omega
  have hal1 : al ≤ 2 ^ 32 - 1 := by omega
  have hbh1 : bh ≤ 2 ^ 32 - 1 := by omega
  have hbl1 : bl ≤ 2 ^ 32 - 1 := by omega
  have hM : ∀ x y : ℕ, x ≤ 2 ^ 32 - 1 → y ≤ 2 ^ 32 - 1 → x * y ≤ (2 ^ 32 - 1) * (2 ^ 32 - 1) := fun x y hx hy => Nat.mul_le_mul hx hy
  have p1 := hM ah bl hah1 hbl1
  have p2 := hM al bh hal1 hbh1
  have p3 := hM ah bh hah1 hbh1
  have p4 := hM al bl hal1 hbl1
  norm_num at p1 p2 p3 p4
  have c1 : (f.mant >>> 32 * lo32 g.mant).toNat = ah * bl := by
    rw [BitVec.toNat_mul, hfh, hgl, Nat.mod_eq_of_lt (by omega)]
  have c2 : (lo32 f.mant * g.mant >>> 32).toNat = al * bh := by
    rw [BitVec.toNat_mul, hfl, hgh, Nat.mod_eq_of_lt (by omega)]
  have c3 : (f.mant >>> 32 * g.mant >>> 32).toNat = ah * bh := by
    rw [BitVec.toNat_mul, hfh, hgh, Nat.mod_eq_of_lt (by omega)]
  have c4 : (lo32 f.mant * lo32 g.mant).toNat = al * bl := by
    rw [BitVec.toNat_mul, hfl, hgl, Nat.mod_eq_of_lt (by omega)]
  have hmul : a * b = ah * bh * 2 ^ 64 + (ah * bl + al * bh) * 2 ^ 32 + al * bl := by
    have e1 : a = ah * 2 ^ 32 + al := by omega
    have e2 : b = bh * 2 ^ 32 + bl := by omega
    rw [e1, e2]; ring
  have hone : (((1 <<< 31 : ℕ)) : BitVec 64).toNat = 2 ^ 31 := by decide
  set x1 := ah * bl with hx1
  set x2 := al * bh with hx2
  set x3 := ah * bh with hx3
  set x4 := al * bl with hx4
  rw [BitVec.toNat_add, BitVec.toNat_add, BitVec.toNat_add, c3, BitVec.toNat_ushiftRight, c1, BitVec.toNat_ushiftRight, c2,
    BitVec.toNat_ushiftRight, BitVec.toNat_add, BitVec.toNat_add, BitVec.toNat_add, lo32_toNat, lo32_toNat, c1, c2,
    BitVec.toNat_ushiftRight, c4, hone, hmul]
  simp only [Nat.shiftRight_eq_div_pow]
  have hbnd : x3 * 2 ^ 64 + (x1 + x2) * 2 ^ 32 + x4 ≤ (2 ^ 64 - 1) * (2 ^ 64 - 1) := by
    rw [← hmul]; exact Nat.mul_le_mul (by omega) (by omega)
  clear_value x1 x2 x3 x4
  omega

theorem multiply_exp (f g : ExtFloat) : (f.multiply g).exp = f.exp + g.exp + 64 := by
  unfold ExtFloat.multiply; rfl
theorem multiply_neg (f g : ExtFloat) : (f.multiply g).neg = f.neg := by
  unfold ExtFloat.multiply; rfl

end GoFloat.Strconv
