import Verif.Props.ExactProduct
/-
C126: a sum and a difference of two products of float64 values by way of binary128, and of float32 values by way of float80x86.
-/
namespace GoFloat
open Spec Float128ppc Strconv

/-- The encoding `c` is the number `v` rounded once: zero if and only if `v` is zero, and otherwise of the sign of `v` and nearest to it, ties to even. -/
def RoundedOnce (F : Format) (v : ℚ) (c : ℕ) : Prop :=
  (v = 0 → ∃ b, F.decode c = .num b 0) ∧
  (v ≠ 0 → F.RoundsTo (decide (v < 0)) |v| c ∧ ∃ r, r ≠ 0 ∧ F.decode c = .num (decide (v < 0)) r)

variable {F : Format} {c c' e : ℕ} {s s' t t' : Bool} {m m' n n' : ℚ} {z : BigFloat}

theorem rounded_once (ht : 1 ≤ F.t) (hw : 2 ≤ F.w) (hc : F.decode c = .num s m) (hc' : F.decode c' = .num s' m')
    (hv : |signed s m + signed s' m'| < F.overflowAt) (h : IsSum F s m s' m' e) : RoundedOnce F (signed s m + signed s' m') e := by
  obtain ⟨k, -⟩ := kept_of ht hw hc hc' (d := F.decode e) (fun _ => ⟨e, rfl, h⟩) (fun h' => absurd hv (not_lt.2 h'))
  refine ⟨k.2, fun hne => ?_⟩
  unfold IsSum at h
  rw [if_neg hne] at h
  refine ⟨h, ?_⟩
  unfold Format.RoundsTo at h
  rw [if_neg (not_le.2 hv)] at h
  obtain ⟨r, hr, -⟩ := h
  exact ⟨r, fun h0 => hne (k.1 ⟨_, by rw [hr, h0]⟩), hr⟩

theorem signed_mul (s s' : Bool) (m m' : ℚ) : signed (s != s') (m * m') = signed s m * signed s' m' := by
  unfold signed; cases s <;> cases s' <;> simp

/-- Two numbers below 2^e add up to a number below the overflow threshold of a format with a larger exponent. -/
theorem sum_lt_overflow {e : ℤ} (he : e + 1 ≤ F.bias) (h1 : |m| < (2 : ℚ) ^ e) (h2 : |m'| < (2 : ℚ) ^ e) : |m + m'| < F.overflowAt := by
  refine (abs_add_le m m').trans_lt ?_
  calc |m| + |m'| < (2 : ℚ) ^ (e + 1) := by rw [zpow_add_one₀ (by norm_num)]; linarith
    _ ≤ (2 : ℚ) ^ (F.bias : ℤ) := zpow_le_zpow_right₀ (by norm_num) he
    _ ≤ F.overflowAt := by
      unfold Format.overflowAt
      refine le_mul_of_one_le_right (zpow_nonneg (by norm_num) _) ?_
      have : (1 : ℚ) / 2 ^ (F.t + 1) ≤ 1 := by
        rw [div_le_one (by positivity)]
        exact one_le_pow₀ (by norm_num)
      linarith

namespace Binary128

theorem product_lt {a b : F64} (ha : double.decode a.toNat = .num s m) (hb : double.decode b.toNat = .num s' m') (h0 : m ≠ 0) (h0' : m' ≠ 0) :
    |signed (s != s') (m * m')| < (2 : ℚ) ^ (2048 : ℤ) := by
  have ma := decode_nonneg ha
  have mb := decode_nonneg hb
  rw [BigFloat.signed_abs (mul_nonneg ma mb), show (2048 : ℤ) = 1024 + 1024 by norm_num, zpow_add₀ (by norm_num)]
  exact mul_lt_mul'' (double_bounds ha h0).2 (double_bounds hb h0').2 ma mb

/-- C126 for float64 values `a`, `b`, `c`, `d` by way of binary128: `ab + cd` and `ab - cd` are rounded once. -/
theorem C126_float64 {a b c d : F64} (ha : double.decode a.toNat = .num s m) (hb : double.decode b.toNat = .num s' m')
    (hc : double.decode c.toNat = .num t n) (hd : double.decode d.toNat = .num t' n') (h0 : m ≠ 0) (h0' : m' ≠ 0) (h1 : n ≠ 0) (h1' : n' ≠ 0)
    (hz : z.prec = 113) (hmode : z.mode = .toNearestEven) :
    ∃ fa fb fc fd A B C D p q P Q r h r' h',
      newFromFloat64 a = .ok (fa, .exact) ∧ newFromFloat64 b = .ok (fb, .exact) ∧ newFromFloat64 c = .ok (fc, .exact) ∧ newFromFloat64 d = .ok (fd, .exact) ∧
      fa.big = .ok (A, false) ∧ fb.big = .ok (B, false) ∧ fc.big = .ok (C, false) ∧ fd.big = .ok (D, false) ∧
      newFromBig (z.mul A B) = .ok (p, .exact) ∧ newFromBig (z.mul C D) = .ok (q, .exact) ∧ p.big = .ok (P, false) ∧ q.big = .ok (Q, false) ∧
      z.add P Q = .ok r ∧ newFromBig r = .ok (h, .exact) ∧ RoundedOnce quad (signed s m * signed s' m' + signed t n * signed t' n') h.code ∧
      z.sub P Q = .ok r' ∧ newFromBig r' = .ok (h', .exact) ∧ RoundedOnce quad (signed s m * signed s' m' - signed t n * signed t' n') h'.code := by
  obtain ⟨fa, fb, A, B, p, e1, e2, e3, e4, e5, e6⟩ := C125_float64 ha hb h0 h0' hz hmode
  obtain ⟨fc, fd, C, D, q, d1, d2, d3, d4, d5, d6⟩ := C125_float64 hc hd h1 h1' hz hmode
  obtain ⟨P, Q, hP, hQ, ⟨r, a1, h, acc, a2, a3, -⟩, ⟨r', b1, h', acc', b2, b3, -⟩⟩ := C104_binary128 (z := z) e6 d6 (.inr hz) hmode
  have l1 := product_lt ha hb h0 h0'
  have l2 := product_lt hc hd h1 h1'
  have v1 := sum_lt_overflow (F := quad) (by decide) l1 l2
  have v2 := sum_lt_overflow (F := quad) (m' := signed (!(t != t')) (n * n')) (by decide) l1 (by rw [signed_not, abs_neg]; exact l2)
  obtain ⟨a4, rfl⟩ := a3 v1
  obtain ⟨b4, rfl⟩ := b3 v2
  obtain ⟨k, hk, hk', -, -⟩ := quad.code_of_decode d6
  have r1 := rounded_once (by decide) (by decide) e6 d6 v1 a4
  have r2 := rounded_once (by decide) (by decide) e6 (by rw [hk']; exact quad.decode_code _ hk) v2 b4
  rw [signed_not, ← sub_eq_add_neg] at r2
  rw [signed_mul, signed_mul] at r1 r2
  exact ⟨fa, fb, fc, fd, A, B, C, D, p, q, P, Q, r, h, r', h', e1, e2, d1, d2, e3, e4, d3, d4, e5, d5, hP, hQ, a1, a2, r1, b1, b2, r2⟩

-- the float64 nearest to 1/10, four times: the difference is zero
example := C126_float64 (z := ⟨113, .toNearestEven, .exact, .zero, false, 0, 0⟩) decode_tenth decode_tenth decode_tenth decode_tenth (by norm_num) (by norm_num)
  (by norm_num) (by norm_num) rfl rfl

end Binary128

namespace Float80x86

theorem product_lt {a b : F32} (ha : single.decode a.toNat = .num s m) (hb : single.decode b.toNat = .num s' m') (h0 : m ≠ 0) (h0' : m' ≠ 0) :
    |signed (s != s') (m * m')| < (2 : ℚ) ^ (256 : ℤ) := by
  have ma := decode_nonneg ha
  have mb := decode_nonneg hb
  rw [BigFloat.signed_abs (mul_nonneg ma mb), show (256 : ℤ) = 128 + 128 by norm_num, zpow_add₀ (by norm_num)]
  exact mul_lt_mul'' (single_bounds ha h0).2 (single_bounds hb h0').2 ma mb

/-- C126 for float32 values by way of float80x86 -/
theorem C126_float32 {a b c d : F32} (ha : single.decode a.toNat = .num s m) (hb : single.decode b.toNat = .num s' m')
    (hc : single.decode c.toNat = .num t n) (hd : single.decode d.toNat = .num t' n') (h0 : m ≠ 0) (h0' : m' ≠ 0) (h1 : n ≠ 0) (h1' : n' ≠ 0)
    (hz : z.prec = 64) (hmode : z.mode = .toNearestEven) :
    ∃ fa fb fc fd A B C D p q P Q r h r' h',
      newFromFloat32 a = .ok (fa, .exact) ∧ newFromFloat32 b = .ok (fb, .exact) ∧ newFromFloat32 c = .ok (fc, .exact) ∧ newFromFloat32 d = .ok (fd, .exact) ∧
      fa.big = .ok (A, false) ∧ fb.big = .ok (B, false) ∧ fc.big = .ok (C, false) ∧ fd.big = .ok (D, false) ∧
      newFromBig (z.mul A B) = .ok (p, .exact) ∧ newFromBig (z.mul C D) = .ok (q, .exact) ∧ p.big = .ok (P, false) ∧ q.big = .ok (Q, false) ∧
      z.add P Q = .ok r ∧ newFromBig r = .ok (h, .exact) ∧ h.Canonical ∧ RoundedOnce extended (signed s m * signed s' m' + signed t n * signed t' n') h.code ∧
      z.sub P Q = .ok r' ∧ newFromBig r' = .ok (h', .exact) ∧ h'.Canonical ∧
      RoundedOnce extended (signed s m * signed s' m' - signed t n * signed t' n') h'.code := by
  obtain ⟨fa, fb, A, B, p, e1, e2, e3, e4, e5, ep, e6⟩ := C125_float32 ha hb h0 h0' hz hmode
  obtain ⟨fc, fd, C, D, q, d1, d2, d3, d4, d5, dp, d6⟩ := C125_float32 hc hd h1 h1' hz hmode
  obtain ⟨P, Q, hP, hQ, ⟨r, a1, h, acc, a2, a3, -⟩, ⟨r', b1, h', acc', b2, b3, -⟩⟩ := C104_float80x86 (z := z) e6 d6 (.inr hz) hmode
  rw [val_canonical ep] at e6
  rw [val_canonical dp] at d6
  have l1 := product_lt ha hb h0 h0'
  have l2 := product_lt hc hd h1 h1'
  have v1 := sum_lt_overflow (F := extended) (by decide) l1 l2
  have v2 := sum_lt_overflow (F := extended) (m' := signed (!(t != t')) (n * n')) (by decide) l1 (by rw [signed_not, abs_neg]; exact l2)
  obtain ⟨ac, a4, rfl⟩ := a3 v1
  obtain ⟨bc, b4, rfl⟩ := b3 v2
  obtain ⟨k, hk, hk', -, -⟩ := extended.code_of_decode d6
  have r1 := rounded_once (by decide) (by decide) e6 d6 v1 a4
  have r2 := rounded_once (by decide) (by decide) e6 (by rw [hk']; exact extended.decode_code _ hk) v2 b4
  rw [signed_not, ← sub_eq_add_neg] at r2
  rw [signed_mul, signed_mul] at r1 r2
  exact ⟨fa, fb, fc, fd, A, B, C, D, p, q, P, Q, r, h, r', h', e1, e2, d1, d2, e3, e4, d3, d4, e5, d5, hP, hQ, a1, a2, ac, r1, b1, b2, bc, r2⟩

-- 2^-149, four times
example := C126_float32 (z := ⟨64, .toNearestEven, .exact, .zero, false, 0, 0⟩) decode_smallest decode_smallest decode_smallest decode_smallest
  (by norm_num) (by norm_num) (by norm_num) (by norm_num) rfl rfl

end Float80x86

end GoFloat
