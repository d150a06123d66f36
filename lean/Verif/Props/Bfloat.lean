import Verif.Proofs.Bfloat
/-
Properties of package bfloat (C25 of properties.jsonl).
-/
namespace GoFloat.Bfloat
open Spec

/-- C25: the accessors are the fields, and lose nothing. -/
theorem C25_bfloat_fields (b : BitVec 16) :
    ((newFromBits b).signbit = true ↔ 2 ^ 15 ≤ b.toNat) ∧
    (newFromBits b).exp = (b.toNat / 2 ^ 7 % 2 ^ 8 : ℕ) ∧
    (newFromBits b).frac.toNat = b.toNat % 2 ^ 7 ∧
    b.toNat = (if (newFromBits b).signbit then 2 ^ 15 else 0) + (newFromBits b).exp.toNat * 2 ^ 7 + (newFromBits b).frac.toNat := by
  have hb := b.isLt
  have hs : (newFromBits b).signbit = true ↔ 2 ^ 15 ≤ b.toNat := by
    rw [signbit_eq, decide_eq_true_eq]; show b.toNat / 2 ^ 15 % 2 = 1 ↔ _; omega
  refine ⟨hs, exp_eq _, frac_eq _, ?_⟩
  rw [exp_eq, frac_eq, Int.toNat_natCast]
  show b.toNat = _ + b.toNat / 2 ^ 7 % 2 ^ 8 * 2 ^ 7 + b.toNat % 2 ^ 7
  split <;> rename_i h <;> rw [hs] at h <;> omega

/-- C25: `Big` never panics and returns, exactly and with precision 8, what the float32 with the same upper 16 bits (and
lower 16 bits zero) denotes; `nan` is set exactly when that is a NaN. -/
theorem C25_bfloat_big (f : Float) :
    ∃ x nan, f.big = .ok (x, nan) ∧ x.prec = 8 ∧ x.mode = .toNearestEven ∧ x.acc = .exact ∧ x.WF ∧
      Decoded (single.decode (f.bits ++ (0 : BitVec 16)).toNat) x nan := by
  rw [BitVec.toNat_append, show (0 : BitVec 16).toNat = 0 from rfl, Nat.or_zero, Nat.shiftLeft_eq, ← decode_single]
  exact big_spec f

/-- C25: the same with the bfloat16 format (7 fraction bits, 8 exponent bits) itself. -/
theorem C25_bfloat_big_format (f : Float) :
    ∃ x nan, f.big = .ok (x, nan) ∧ x.prec = 8 ∧ x.mode = .toNearestEven ∧ x.acc = .exact ∧ x.WF ∧
      Decoded (brain.decode f.bits.toNat) x nan := big_spec f

example : (newFromBits 0xC049).signbit = true ∧ (newFromBits 0xC049).exp = 128 ∧ (newFromBits 0xC049).frac = 0x49 := by
  decide +kernel
-- -3.140625, as the float32 0xC0490000
example : single.decode ((0xC049 : BitVec 16) ++ (0 : BitVec 16)).toNat = .num true (201 / 64) := by
  rw [show ((0xC049 : BitVec 16) ++ (0 : BitVec 16)).toNat = 0xC0490000 from rfl]
  norm_num [Format.decode, single, Format.bias]
-- the smallest subnormal
example : single.decode ((0x0001 : BitVec 16) ++ (0 : BitVec 16)).toNat = .num false (2 ^ (-133 : ℤ)) := by
  rw [show ((0x0001 : BitVec 16) ++ (0 : BitVec 16)).toNat = 0x10000 from rfl]
  norm_num [Format.decode, single, Format.bias]

end GoFloat.Bfloat
