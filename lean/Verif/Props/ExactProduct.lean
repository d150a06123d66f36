import Verif.Props.ViaExtended
/-
C125: the product of two float64 values is exact in binary128, that of two float32 values in float80x86.
-/
namespace GoFloat
open Spec Float128ppc Strconv

variable {s s' : Bool} {m m' : ℚ} {z : BigFloat}

namespace Binary128

/-- C125 for binary128: the product of any two finite nonzero float64 values is represented without error, also where it overflows or underflows in float64. -/
theorem C125_float64 {a b : F64} (ha : double.decode a.toNat = .num s m) (hb : double.decode b.toNat = .num s' m') (h0 : m ≠ 0) (h0' : m' ≠ 0)
    (hz : z.prec = 113) (hmode : z.mode = .toNearestEven) :
    ∃ f g x y h, newFromFloat64 a = .ok (f, .exact) ∧ newFromFloat64 b = .ok (g, .exact) ∧ f.big = .ok (x, false) ∧ g.big = .ok (y, false) ∧
      newFromBig (z.mul x y) = .ok (h, .exact) ∧ quad.decode h.code = .num (s != s') (m * m') := by
  obtain ⟨f, f1, f2, -⟩ := C16_binary128_float64 a (fun s h => by rw [ha] at h; cases h)
  obtain ⟨g, g1, g2, -⟩ := C16_binary128_float64 b (fun s h => by rw [hb] at h; cases h)
  rw [ha] at f2
  rw [hb] at g2
  obtain ⟨x, y, hx, hy, ⟨q, h, acc, -, -, e1, e2, -⟩, -⟩ := C108_binary128 (z := z) f2 g2 h0 h0' hz hmode
  have ma := decode_nonneg ha
  have mb := decode_nonneg hb
  obtain ⟨a1, a2⟩ := double_bounds ha h0
  obtain ⟨b1, b2⟩ := double_bounds hb h0'
  have hlow : (2 : ℚ) ^ (-2148 : ℤ) ≤ m * m' := by
    rw [show (-2148 : ℤ) = -1074 + -1074 by norm_num, zpow_add₀ (by norm_num)]
    exact mul_le_mul a1 b1 (zpow_nonneg (by norm_num) _) ma
  have hhi : m * m' < (2 : ℚ) ^ (2048 : ℤ) := by
    rw [show (2048 : ℤ) = 1024 + 1024 by norm_num, zpow_add₀ (by norm_num)]
    exact mul_lt_mul'' a2 b2 ma mb
  have hov : m * m' < quad.overflowAt := by
    refine hhi.trans_le (le_trans (zpow_le_zpow_right₀ (by norm_num) (by decide : (2048 : ℤ) ≤ quad.bias)) ?_)
    unfold Format.overflowAt
    refine le_mul_of_one_le_right (zpow_nonneg (by norm_num) _) ?_
    rw [show quad.t = 112 by rfl]
    norm_num
  obtain ⟨e3, rfl⟩ := e2 ((zpow_le_zpow_right₀ (by norm_num) (by norm_num)).trans hlow) hov
  obtain ⟨K, i, k1, k2, k3⟩ := value_form ha
  obtain ⟨K', i', k1', k2', k3'⟩ := value_form hb
  rw [show double.qmin = -1074 by decide] at k2 k2'
  have hp : (0 : ℚ) < (2 : ℚ) ^ (i + i') := zpow_pos (by norm_num) _
  have habs : |m * m'| = |((K * K' : ℤ) : ℚ)| * (2 : ℚ) ^ (i + i') := by
    rw [← abs_of_pos hp, ← abs_mul, show (((K * K' : ℤ) : ℚ) * (2 : ℚ) ^ (i + i')) = signed s m * signed s' m' by
      rw [k3, k3', zpow_add₀ (by norm_num)]; push_cast; ring, abs_mul, abs_mul, BigFloat.signed_abs ma, BigFloat.signed_abs mb, abs_of_nonneg ma, abs_of_nonneg mb]
  obtain ⟨c, hc⟩ := form_value (F := quad) (by decide) (K := K * K') (q := i + i') (v := m * m') (by
      rw [abs_mul]
      calc |K| * |K'| < 2 ^ 53 * 2 ^ 53 := mul_lt_mul'' k1 k1' (abs_nonneg _) (abs_nonneg _)
        _ < 2 ^ (quad.t + 1) := by decide) (by rw [show quad.qmin = -16494 by decide]; omega) habs (by
      rw [abs_of_nonneg (mul_nonneg ma mb)]
      exact hhi.trans (zpow_lt_zpow_right₀ (by norm_num) (by decide))) (s != s')
  rw [abs_of_nonneg (mul_nonneg ma mb)] at hc
  have hd := round_to_self (by decide) hc e3
  exact ⟨f, g, x, y, h, f1, g1, hx, hy, e1, hd⟩

-- the float64 nearest to 1/10 by itself
example := C125_float64 (z := ⟨113, .toNearestEven, .exact, .zero, false, 0, 0⟩) decode_tenth decode_tenth (by norm_num) (by norm_num) rfl rfl

end Binary128

namespace Float80x86

/-- C125 for float80x86: the product of any two finite nonzero float32 values is represented without error, also where it overflows or underflows in float32. -/
theorem C125_float32 {a b : F32} (ha : single.decode a.toNat = .num s m) (hb : single.decode b.toNat = .num s' m') (h0 : m ≠ 0) (h0' : m' ≠ 0)
    (hz : z.prec = 64) (hmode : z.mode = .toNearestEven) :
    ∃ f g x y h, newFromFloat32 a = .ok (f, .exact) ∧ newFromFloat32 b = .ok (g, .exact) ∧ f.big = .ok (x, false) ∧ g.big = .ok (y, false) ∧
      newFromBig (z.mul x y) = .ok (h, .exact) ∧ h.Canonical ∧ h.val = .num (s != s') (m * m') := by
  obtain ⟨f, f1, -, f2, -⟩ := C22_float80x86_float32 a (fun s h => by rw [ha] at h; cases h)
  obtain ⟨g, g1, -, g2, -⟩ := C22_float80x86_float32 b (fun s h => by rw [hb] at h; cases h)
  rw [ha] at f2
  rw [hb] at g2
  obtain ⟨x, y, hx, hy, ⟨q, h, acc, -, -, e1, e2, -⟩, -⟩ := C108_float80x86 (z := z) f2 g2 h0 h0' hz hmode
  have ma := decode_nonneg ha
  have mb := decode_nonneg hb
  obtain ⟨a1, a2⟩ := single_bounds ha h0
  obtain ⟨b1, b2⟩ := single_bounds hb h0'
  have hlow : (2 : ℚ) ^ (-298 : ℤ) ≤ m * m' := by
    rw [show (-298 : ℤ) = -149 + -149 by norm_num, zpow_add₀ (by norm_num)]
    exact mul_le_mul a1 b1 (zpow_nonneg (by norm_num) _) ma
  have hhi : m * m' < (2 : ℚ) ^ (256 : ℤ) := by
    rw [show (256 : ℤ) = 128 + 128 by norm_num, zpow_add₀ (by norm_num)]
    exact mul_lt_mul'' a2 b2 ma mb
  have hov : m * m' < extended.overflowAt := by
    refine hhi.trans_le (le_trans (zpow_le_zpow_right₀ (by norm_num) (by decide : (256 : ℤ) ≤ extended.bias)) ?_)
    unfold Format.overflowAt
    refine le_mul_of_one_le_right (zpow_nonneg (by norm_num) _) ?_
    rw [show extended.t = 63 by rfl]
    norm_num
  obtain ⟨hcan, e3, rfl⟩ := e2 ((zpow_le_zpow_right₀ (by norm_num) (by norm_num)).trans hlow) hov
  obtain ⟨K, i, k1, k2, k3⟩ := value_form ha
  obtain ⟨K', i', k1', k2', k3'⟩ := value_form hb
  rw [show single.qmin = -149 by decide] at k2 k2'
  have hp : (0 : ℚ) < (2 : ℚ) ^ (i + i') := zpow_pos (by norm_num) _
  have habs : |m * m'| = |((K * K' : ℤ) : ℚ)| * (2 : ℚ) ^ (i + i') := by
    rw [← abs_of_pos hp, ← abs_mul, show (((K * K' : ℤ) : ℚ) * (2 : ℚ) ^ (i + i')) = signed s m * signed s' m' by
      rw [k3, k3', zpow_add₀ (by norm_num)]; push_cast; ring, abs_mul, abs_mul, BigFloat.signed_abs ma, BigFloat.signed_abs mb, abs_of_nonneg ma, abs_of_nonneg mb]
  obtain ⟨c, hc⟩ := form_value (F := extended) (by decide) (K := K * K') (q := i + i') (v := m * m') (by
      rw [abs_mul]
      calc |K| * |K'| < 2 ^ 24 * 2 ^ 24 := mul_lt_mul'' k1 k1' (abs_nonneg _) (abs_nonneg _)
        _ < 2 ^ (extended.t + 1) := by decide) (by rw [show extended.qmin = -16445 by decide]; omega) habs (by
      rw [abs_of_nonneg (mul_nonneg ma mb)]
      exact hhi.trans (zpow_lt_zpow_right₀ (by norm_num) (by decide))) (s != s')
  rw [abs_of_nonneg (mul_nonneg ma mb)] at hc
  have hd := round_to_self (by decide) hc e3
  obtain ⟨k, acc', d1, d2⟩ := C23_float80x86_float32 h
  rw [val_canonical hcan, hd] at d2
  exact ⟨f, g, x, y, h, f1, g1, hx, hy, e1, hcan, by rw [val_canonical hcan, hd]⟩

/-- The smallest float32. -/
theorem decode_smallest : single.decode (1 : F32).toNat = .num false ((2 : ℚ) ^ (-149 : ℤ)) := by
  show single.decode 1 = _
  norm_num [single, Format.decode, Format.bias]

-- 2^-149 by itself: the product 2^-298 is far below the smallest float32
example := C125_float32 (z := ⟨64, .toNearestEven, .exact, .zero, false, 0, 0⟩) decode_smallest decode_smallest (by norm_num) (by norm_num) rfl rfl

end Float80x86

end GoFloat
