import Verif.Proofs.Trunc
import Verif.Spec.Code80
import Verif.Spec.Code128
import Verif.Spec.Order
/-
Concrete numbers at which the theorems of Verif/Props are instantiated, to show that their hypotheses can be met.
-/
namespace GoFloat.Sample
open Spec

/-- -11/8, which every format has -/
def x : BigFloat := ⟨53, .toNearestEven, .exact, .finite, true, 11, 1⟩

theorem x_wf : x.WF :=
  ⟨by decide, by decide, by decide, by decide, by decide, fun _ => ⟨11, 0, by decide, by decide⟩⟩

theorem x_datum : x.datum = .num true (11 / 8) := by
  rw [BigFloat.datum_lit 4 rfl (by decide)]; norm_num [x]

theorem x_half : half.decode (0xBD80 : BitVec 16).toNat = .num true (11 / 8) := by
  show half.decode 0xBD80 = _
  norm_num [half, Format.decode, Format.bias]

theorem x_brain : brain.decode (0xBFB0 : BitVec 16).toNat = .num true (11 / 8) := by
  show brain.decode 0xBFB0 = _
  norm_num [brain, Format.decode, Format.bias]

theorem x_single : single.decode (0xBFB00000 : BitVec 32).toNat = .num true (11 / 8) := by
  show single.decode 0xBFB00000 = _
  norm_num [single, Format.decode, Format.bias]

theorem x_double : double.decode (0xBFF6000000000000 : BitVec 64).toNat = .num true (11 / 8) := by
  show double.decode 0xBFF6000000000000 = _
  norm_num [double, Format.decode, Format.bias]

theorem x_quad : quad.decode (Binary128.Float.code ⟨0xBFFF600000000000, 0⟩) = .num true (11 / 8) := by
  rw [show Binary128.Float.code ⟨0xBFFF600000000000, 0⟩ = 0xBFFF6000000000000000000000000000 by decide +kernel]
  norm_num [quad, Format.decode, Format.bias]

theorem x_extended : decode80 0xBFFF 0xB000000000000000 = .num true (11 / 8) := by
  norm_num [decode80]

theorem x_val : Float80x86.Float.val ⟨0xBFFF, 0xB000000000000000⟩ = .num true (11 / 8) := by
  show decode80 0xBFFF 0xB000000000000000 = _
  exact x_extended

theorem x_canonical : Float80x86.Float.Canonical ⟨0xBFFF, 0xB000000000000000⟩ := by
  show Canonical80 0xBFFF 0xB000000000000000
  norm_num [Canonical80]

/-- 11/8 -/
def x_neg : BigFloat := ⟨4, .toZero, .exact, .finite, false, 11, 1⟩

theorem x_neg_wf : x_neg.WF :=
  ⟨by decide, by decide, by decide, by decide, by decide, fun _ => ⟨11, 0, by decide, by decide⟩⟩

theorem x_neg_datum : x_neg.datum = .num false (11 / 8) := by
  rw [BigFloat.datum_lit 4 rfl (by decide)]; norm_num [x_neg]

theorem x_neg_single : single.decode (0x3FB00000 : BitVec 32).toNat = .num false (11 / 8) := by
  show single.decode 0x3FB00000 = _
  norm_num [single, Format.decode, Format.bias]

theorem x_neg_double : double.decode (0x3FF6000000000000 : BitVec 64).toNat = .num false (11 / 8) := by
  show double.decode 0x3FF6000000000000 = _
  norm_num [double, Format.decode, Format.bias]

theorem w_half : half.decode (0x3E00 : BitVec 16).toNat = .num false (3 / 2) := by
  show half.decode 0x3E00 = _
  norm_num [half, Format.decode, Format.bias]

theorem w_rounds : half.RoundsTo false (3 / 2) (0x3E00 : BitVec 16).toNat := by
  unfold Format.RoundsTo
  rw [if_neg (by norm_num [half, Format.overflowAt, Format.bias])]
  refine ⟨3 / 2, w_half, fun c' s r' _ => ?_, fun c' s r' _ _ _ => by decide⟩
  rw [sub_self, abs_zero]
  exact abs_nonneg _

theorem w_double : double.decode (0x3FF8000000000000 : BitVec 64).toNat = .num false (3 / 2) := by
  show double.decode 0x3FF8000000000000 = _
  norm_num [double, Format.decode, Format.bias]

/-- `1 + 2^-199`, which no format has -/
def y : BigFloat := ⟨200, .toZero, .exact, .finite, false, 2 ^ 199 + 1, 1⟩

theorem y_wf : y.WF :=
  ⟨by decide, by decide, by decide, by decide, by decide, fun _ => ⟨2 ^ 199 + 1, 0, by decide +kernel, by decide +kernel⟩⟩

theorem y_datum : y.datum = .num false (1 + 1 / 2 ^ 199) := by
  rw [BigFloat.datum_lit 200 rfl (by decide +kernel)]; norm_num [y]

/-- `-3 * 2^-20000`, below the range of all formats -/
def z : BigFloat := ⟨64, .toNearestEven, .exact, .finite, true, 3, -19998⟩

theorem z_wf : z.WF :=
  ⟨by decide, by decide, by decide, by decide, by decide, fun _ => ⟨3, 0, by decide, by decide⟩⟩

theorem z_datum : z.datum = .num true (3 * (2 : ℚ) ^ (-20000 : ℤ)) := by
  rw [BigFloat.datum_lit 2 rfl (by decide), Datum.num.injEq]
  refine ⟨rfl, ?_⟩
  show (3 : ℚ) / 2 ^ 2 * (2 : ℚ) ^ (-19998 : ℤ) = _
  rw [show (-19998 : ℤ) = -20000 + 2 by norm_num, zpow_add₀ (by norm_num)]
  generalize (2 : ℚ) ^ (-20000 : ℤ) = t
  ring

theorem z_lt (k : ℤ) (h : -19998 ≤ k) : 3 * (2 : ℚ) ^ (-20000 : ℤ) < (2 : ℚ) ^ k := by
  refine lt_of_lt_of_le ?_ (zpow_le_zpow_right₀ (by norm_num) h)
  rw [show (-19998 : ℤ) = -20000 + 2 by norm_num, zpow_add₀ (by norm_num), mul_comm]
  exact mul_lt_mul_of_pos_left (by norm_num) (zpow_pos (by norm_num) _)

theorem z_pos : 0 < 3 * (2 : ℚ) ^ (-20000 : ℤ) := mul_pos (by norm_num) (zpow_pos (by norm_num) _)

theorem z_le : (2 : ℚ) ^ ((-19998 : ℤ) - 1) ≤ 3 * (2 : ℚ) ^ (-20000 : ℤ) := by
  rw [show (-19998 : ℤ) - 1 = -20000 + 1 by norm_num, zpow_add₀ (by norm_num), mul_comm]
  exact mul_le_mul_of_nonneg_right (by norm_num) (zpow_pos (by norm_num) _).le

/-- -0 -/
def zero : BigFloat := ⟨53, .toNearestEven, .exact, .zero, true, 0, 0⟩

theorem zero_wf : zero.WF := ⟨by decide, by decide, by decide, by decide, by decide, fun h => absurd h (by decide)⟩

theorem zero_datum : zero.datum = .num true 0 := rfl

/-- -Inf -/
def inf : BigFloat := ⟨53, .toNearestEven, .exact, .inf, true, 0, 0⟩

theorem inf_wf : inf.WF := ⟨by decide, by decide, by decide, by decide, by decide, fun h => absurd h (by decide)⟩

theorem inf_datum : inf.datum = .inf true := rfl

theorem inf_single : single.decode (0xFF800000 : BitVec 32).toNat = .inf true := by
  show single.decode 0xFF800000 = _
  norm_num [single, Format.decode]

theorem inf_double : double.decode (0xFFF0000000000000 : BitVec 64).toNat = .inf true := by
  show double.decode 0xFFF0000000000000 = _
  norm_num [double, Format.decode]

theorem nan_double : double.decode (0xFFF8000000000001 : BitVec 64).toNat = .nan true := by
  show double.decode 0xFFF8000000000001 = _
  norm_num [double, Format.decode]

theorem inf_le_x : Datum.Le (.inf true) (.num true (11 / 8)) := ⟨_, _, rfl, rfl, by norm_num [keyLt]⟩

theorem x_le_y : Datum.Le (.num true (11 / 8)) (.num false (1 + 1 / 2 ^ 199)) := ⟨_, _, rfl, rfl, by norm_num [keyLt, signed]⟩

/-- 1 ≤ m < 2 is within the powers of two of every format -/
theorem lt_two {m : ℚ} (h : m < 2) {k : ℤ} (hk : 1 ≤ k) : m < (2 : ℚ) ^ k :=
  lt_of_lt_of_le (by simpa using h) (zpow_le_zpow_right₀ (by norm_num) hk : (2 : ℚ) ^ (1 : ℤ) ≤ _)

theorem le_one {m : ℚ} (h : 1 ≤ m) {k : ℤ} (hk : k ≤ 0) : (2 : ℚ) ^ k ≤ m :=
  le_trans (zpow_le_one_of_nonpos₀ (by norm_num) hk) h

end GoFloat.Sample
