import Verif.Props.ErrorOfSum
import Verif.Props.Nearest
/-
C108: multiplying and dividing by way of `Big`, `Mul` or `Quo` of math/big, and `NewFromBig`.
-/
namespace GoFloat
open Spec Strconv

variable {F : Format} {z x y R : BigFloat} {c c' : ℕ} {s s' : Bool} {m m' v : ℚ}

/-- What `Mul` or `Quo` makes of an exact result of sign `s` and magnitude `v`: `v` rounded to the bits of the format; if `v` is in the normal range,
the correctly rounded number of the format. -/
def RoundedOf (F : Format) (s : Bool) (v : ℚ) (R : BigFloat) : Prop :=
  R.WF ∧ (∃ q, 0 < q ∧ R.datum = .num s q ∧ RoundsToBits (F.t + 1) v q) ∧
  ((2 : ℚ) ^ (F.qmin + F.t) ≤ v → v < F.overflowAt → ∃ e, e < 2 ^ (F.t + F.w + 1) ∧ R.datum = F.decode e ∧ F.RoundsTo s v e)

theorem rounded_of (ht : 1 ≤ F.t) (hw : 2 ≤ F.w) (hv : 0 < v) (hlo : (2 : ℚ) ^ (BigFloat.MinExp - 1) ≤ v) (hhi : v < (2 : ℚ) ^ (BigFloat.MaxExp - 1))
    (h : BigResult .toNearestEven (F.t + 1) s (signed s v) R) : RoundedOf F s v R := by
  obtain ⟨-, -, b3, b4, b5⟩ := h
  have ha : |signed s v| = v := by cases s <;> simp [signed, abs_of_pos hv]
  rcases b5 with ⟨h1, h2, -⟩ | ⟨-, -, h⟩ | ⟨-, -, h⟩
  · have h2 := h2.2
    rw [BigFloat.sval_finite h1, b3] at h2
    have hrm := roundsToBits_mag h2
    have hdat : R.datum = .num s R.mag := by rw [BigFloat.datum_finite h1, b3]
    have hq : 0 < R.mag := by
      obtain ⟨i, hi, -⟩ := exists_mem_Ico_zpow hv (by norm_num : (1 : ℚ) < 2)
      have := Float128ppc.ge_of_ge hrm (K := 1) (e := i) (two_pow_bits _ 0).1 (by rw [(two_pow_bits 0 _).2]; exact hi)
      rw [(two_pow_bits 0 _).2] at this
      exact lt_of_lt_of_le (by positivity) this
    refine ⟨b4, ⟨R.mag, hq, hdat, hrm⟩, fun g1 g2 => ?_⟩
    obtain ⟨n, hn, n1, n2⟩ := normal_rounds ht hw s g1 hrm (rounded_in_range hw hrm g2)
    refine ⟨_, ?_, by rw [hdat, F.decode_code _ hn, n1], n2⟩
    have h1 := F.infCode_lt
    unfold Format.signPart
    rw [pow_succ]
    split_ifs <;> omega
  · rw [ha] at h; linarith
  · exfalso
    have hlt : (2 : ℚ) ^ (BigFloat.MaxExp - 1) < (2 : ℚ) ^ BigFloat.MaxExp := zpow_lt_zpow_right₀ (by norm_num) (by omega)
    rcases h with h | h
    · rw [ha] at h; linarith
    · have h2 := roundsToBits_mag h.2
      have := Float128ppc.le_of_le h2 (K := 1) (e := BigFloat.MaxExp - 1) (two_pow_bits _ 0).1 (by rw [(two_pow_bits 0 _).2]; exact hhi.le)
      rw [(two_pow_bits 0 _).2] at this
      linarith

/-- Finite numbers that are not zero. -/
theorem nonzero_form (hx : x.WF) (hxd : x.datum = .num s m) (h0 : m ≠ 0) : x.form = .finite ∧ x.sval = signed s m ∧ x.neg = s := by
  obtain ⟨h1, h2, h3⟩ := BigFloat.sval_of_datum hx hxd
  refine ⟨?_, h1, h3⟩
  unfold BigFloat.datum at hxd
  cases hf : x.form <;> rw [hf] at hxd
  · exact absurd (Datum.num.inj hxd).2.symm h0
  · cases hxd

/-- The magnitudes of numbers of a format that are not zero. -/
theorem nonzero_range (hw : 2 ≤ F.w) (hc : F.decode c = .num s m) (h0 : m ≠ 0) : (2 : ℚ) ^ F.qmin ≤ m ∧ m < (2 : ℚ) ^ (F.bias + 1) := by
  obtain ⟨⟨j, hj⟩, h2⟩ := decode_multiple hw hc
  refine ⟨?_, h2⟩
  have hm0 : 0 ≤ m := by obtain ⟨n, -, rfl, -⟩ := F.code_of_decode hc; exact F.magc_nonneg n
  have hp : (0 : ℚ) < (2 : ℚ) ^ F.qmin := by positivity
  have hm : m = |(j : ℚ)| * (2 : ℚ) ^ F.qmin := by
    rw [← abs_of_pos hp, ← abs_mul, ← hj]; cases s <;> simp [signed, abs_of_nonneg hm0]
  have hj0 : j ≠ 0 := by rintro rfl; exact h0 (by rw [hm]; simp)
  have : (1 : ℚ) ≤ |(j : ℚ)| := by exact_mod_cast Int.one_le_abs hj0
  rw [hm]
  nlinarith

/-- `Mul` and `Quo` of numbers of a format that are not zero, with the precision of the format. -/
theorem mul_quo_result (ht : 1 ≤ F.t) (hw : 2 ≤ F.w) (hp : F.t + 1 ≤ BigFloat.MaxPrec) (hmax : 2 * (F.bias + 1) ≤ BigFloat.MaxExp - 1)
    (hmin : BigFloat.MinExp - 1 ≤ 2 * F.qmin) (hmin' : BigFloat.MinExp - 1 ≤ F.qmin - (F.bias + 1)) (hmax' : F.bias + 1 - F.qmin ≤ BigFloat.MaxExp - 1)
    (hz : z.prec = F.t + 1) (hmode : z.mode = .toNearestEven) (hx : x.WF) (hy : y.WF)
    (hxd : x.datum = .num s m) (hyd : y.datum = .num s' m') (hc : F.decode c = .num s m) (hc' : F.decode c' = .num s' m') (h0 : m ≠ 0) (h0' : m' ≠ 0) :
    RoundedOf F (s != s') (m * m') (z.mul x y) ∧ RoundedOf F (s != s') (m / m') (z.quo x y) := by
  obtain ⟨f1, v1, n1⟩ := nonzero_form hx hxd h0
  obtain ⟨f2, v2, n2⟩ := nonzero_form hy hyd h0'
  obtain ⟨l1, u1⟩ := nonzero_range hw hc h0
  obtain ⟨l2, u2⟩ := nonzero_range hw hc' h0'
  have hpw : ∀ e : ℤ, (0 : ℚ) < (2 : ℚ) ^ e := fun e => by positivity
  have hm : 0 < m := (hpw _).trans_le l1
  have hm' : 0 < m' := (hpw _).trans_le l2
  obtain ⟨g1, g2⟩ := BigFloat.C91_mul_quo (z := z) (by omega) (by omega) hx hy f1 f2
  rw [v1, v2, n1, n2, hz, hmode] at g1 g2
  have e1 : signed s m * signed s' m' = signed (s != s') (m * m') := by unfold signed; cases s <;> cases s' <;> simp
  have e2 : signed s m / signed s' m' = signed (s != s') (m / m') := by unfold signed; cases s <;> cases s' <;> simp [neg_div, div_neg]
  rw [e1] at g1
  rw [e2] at g2
  constructor
  · refine rounded_of ht hw (mul_pos hm hm') ?_ ?_ g1
    · calc (2 : ℚ) ^ (BigFloat.MinExp - 1) ≤ (2 : ℚ) ^ (2 * F.qmin) := zpow_le_zpow_right₀ (by norm_num) hmin
        _ = (2 : ℚ) ^ F.qmin * (2 : ℚ) ^ F.qmin := by rw [two_mul, zpow_add₀ (by norm_num)]
        _ ≤ m * m' := mul_le_mul l1 l2 (hpw _).le hm.le
    · calc m * m' < (2 : ℚ) ^ (F.bias + 1) * (2 : ℚ) ^ (F.bias + 1) := mul_lt_mul'' u1 u2 hm.le hm'.le
        _ = (2 : ℚ) ^ (2 * (F.bias + 1)) := by rw [two_mul (F.bias + 1), ← zpow_add₀ (by norm_num)]
        _ ≤ _ := zpow_le_zpow_right₀ (by norm_num) hmax
  · refine rounded_of ht hw (div_pos hm hm') ?_ ?_ g2
    · calc (2 : ℚ) ^ (BigFloat.MinExp - 1) ≤ (2 : ℚ) ^ (F.qmin - (F.bias + 1)) := zpow_le_zpow_right₀ (by norm_num) hmin'
        _ = (2 : ℚ) ^ F.qmin / (2 : ℚ) ^ (F.bias + 1) := by rw [zpow_sub₀ (by norm_num)]
        _ ≤ m / m' := div_le_div₀ hm.le l1 hm' u2.le
    · calc m / m' ≤ m / (2 : ℚ) ^ F.qmin := div_le_div_of_nonneg_left hm.le (hpw _) l2
        _ < (2 : ℚ) ^ (F.bias + 1) / (2 : ℚ) ^ F.qmin := div_lt_div_of_pos_right u1 (hpw _)
        _ = (2 : ℚ) ^ (F.bias + 1 - F.qmin) := by rw [← zpow_sub₀ (by norm_num)]
        _ ≤ _ := zpow_le_zpow_right₀ (by norm_num) hmax'

namespace Binary16

/-- What comes back from an exact result of sign `s` and magnitude `v`, which math/big rounded to `R`. -/
def Returned (s : Bool) (v : ℚ) (R : BigFloat) : Prop :=
  ∃ q h acc, R.datum = .num s q ∧ RoundsToBits 11 v q ∧ newFromBig R = .ok (h, acc) ∧
    ((2 : ℚ) ^ (-14 : ℤ) ≤ v → v < half.overflowAt → half.RoundsTo s v h.bits.toNat ∧ acc = .exact) ∧
    ((2 : ℚ) ^ (-24 : ℤ) ≤ q → q < (2 : ℚ) ^ (-14 : ℤ) → half.decode h.bits.toNat = .num s (⌊q * 2 ^ (24 : ℤ)⌋ * (2 : ℚ) ^ (-24 : ℤ)))

theorem returned (h : RoundedOf half s v R) : Returned s v R := by
  obtain ⟨h1, ⟨q, q0, q1, q2⟩, h3⟩ := h
  obtain ⟨i, hi1, hi2⟩ := exists_mem_Ico_zpow q0 (by norm_num : (1 : ℚ) < 2)
  obtain ⟨h, acc, hr, a1, a2, -⟩ := C66_binary16 R h1 (e := i + 1) q1 (by rwa [add_sub_cancel_right]) hi2
  refine ⟨q, h, acc, q1, q2, hr, fun g1 g2 => ?_, fun g1 g2 => ?_⟩
  · obtain ⟨e, he, hd, hs⟩ := h3 g1 g2
    have hb : (BitVec.ofNat 16 e).toNat = e := by rw [BitVec.toNat_ofNat]; exact Nat.mod_eq_of_lt he
    have := newFromBig_of_decode h1 (f := ⟨BitVec.ofNat 16 e⟩) (by rw [hb]; exact hd)
    rw [hr] at this
    obtain ⟨rfl, rfl⟩ := Prod.mk.inj (Except.ok.inj this)
    exact ⟨by rw [hb]; exact hs, rfl⟩
  · have l1 := two_lt (g1.trans_lt hi2)
    have l2 := two_lt (hi1.trans_lt g2)
    exact a2 (by omega) (by omega)

/-- C108 for binary16 -/
theorem C108_binary16 {f g : Float} (hf : half.decode f.bits.toNat = .num s m) (hg : half.decode g.bits.toNat = .num s' m') (h0 : m ≠ 0) (h0' : m' ≠ 0)
    (hz : z.prec = 11) (hmode : z.mode = .toNearestEven) :
    ∃ x y, f.big = .ok (x, false) ∧ g.big = .ok (y, false) ∧ Returned (s != s') (m * m') (z.mul x y) ∧ Returned (s != s') (m / m') (z.quo x y) := by
  obtain ⟨x, nx, hx, px, -, -, wx, dx⟩ := C02_binary16_big f
  obtain ⟨y, ny, hy, py, -, -, wy, dy⟩ := C02_binary16_big g
  rw [hf] at dx; rw [hg] at dy
  obtain ⟨rfl, dx⟩ := dx
  obtain ⟨rfl, dy⟩ := dy
  have h := mul_quo_result (F := half) (by decide) (by decide) (by decide) (by decide) (by decide) (by decide) (by decide) hz hmode wx wy dx dy hf hg h0 h0'
  exact ⟨x, y, hx, hy, returned h.1, returned h.2⟩

end Binary16

namespace Binary128

/-- What comes back from an exact result of sign `s` and magnitude `v`, which math/big rounded to `R`. -/
def Returned (s : Bool) (v : ℚ) (R : BigFloat) : Prop :=
  ∃ q h acc, R.datum = .num s q ∧ RoundsToBits 113 v q ∧ newFromBig R = .ok (h, acc) ∧
    ((2 : ℚ) ^ (-16382 : ℤ) ≤ v → v < quad.overflowAt → quad.RoundsTo s v h.code ∧ acc = .exact) ∧
    ((2 : ℚ) ^ (-16494 : ℤ) ≤ q → q < (2 : ℚ) ^ (-16382 : ℤ) → quad.decode h.code = .num s (⌊q * 2 ^ (16494 : ℤ)⌋ * (2 : ℚ) ^ (-16494 : ℤ)))

theorem returned (h : RoundedOf quad s v R) : Returned s v R := by
  obtain ⟨h1, ⟨q, q0, q1, q2⟩, h3⟩ := h
  obtain ⟨i, hi1, hi2⟩ := exists_mem_Ico_zpow q0 (by norm_num : (1 : ℚ) < 2)
  obtain ⟨h, acc, hr, a1, a2, -⟩ := C66_binary128 R h1 (e := i + 1) q1 (by rwa [add_sub_cancel_right]) hi2
  refine ⟨q, h, acc, q1, q2, hr, fun g1 g2 => ?_, fun g1 g2 => ?_⟩
  · obtain ⟨e, he, hd, hs⟩ := h3 g1 g2
    have he' : e < 2 ^ 128 := he
    have hb : (⟨BitVec.ofNat 64 (e / 2 ^ 64), BitVec.ofNat 64 e⟩ : Float).code = e := by
      unfold Float.code
      rw [BitVec.toNat_ofNat, BitVec.toNat_ofNat]
      omega
    have := newFromBig_of_decode h1 (f := ⟨BitVec.ofNat 64 (e / 2 ^ 64), BitVec.ofNat 64 e⟩) (by rw [hb]; exact hd)
    rw [hr] at this
    obtain ⟨rfl, rfl⟩ := Prod.mk.inj (Except.ok.inj this)
    exact ⟨by rw [hb]; exact hs, rfl⟩
  · have l1 := two_lt (g1.trans_lt hi2)
    have l2 := two_lt (hi1.trans_lt g2)
    exact a2 (by omega) (by omega)

/-- C108 for binary128 -/
theorem C108_binary128 {f g : Float} (hf : quad.decode f.code = .num s m) (hg : quad.decode g.code = .num s' m') (h0 : m ≠ 0) (h0' : m' ≠ 0)
    (hz : z.prec = 113) (hmode : z.mode = .toNearestEven) :
    ∃ x y, f.big = .ok (x, false) ∧ g.big = .ok (y, false) ∧ Returned (s != s') (m * m') (z.mul x y) ∧ Returned (s != s') (m / m') (z.quo x y) := by
  obtain ⟨x, nx, hx, px, -, -, wx, dx⟩ := C14_binary128_big f
  obtain ⟨y, ny, hy, py, -, -, wy, dy⟩ := C14_binary128_big g
  rw [hf] at dx; rw [hg] at dy
  obtain ⟨rfl, dx⟩ := dx
  obtain ⟨rfl, dy⟩ := dy
  have h := mul_quo_result (F := quad) (by decide) (by decide) (by decide) (by decide) (by decide) (by decide) (by decide) hz hmode wx wy dx dy hf hg h0 h0'
  exact ⟨x, y, hx, hy, returned h.1, returned h.2⟩

end Binary128

namespace Float80x86

/-- What comes back from an exact result of sign `s` and magnitude `v`, which math/big rounded to `R`. -/
def Returned (s : Bool) (v : ℚ) (R : BigFloat) : Prop :=
  ∃ q h acc, R.datum = .num s q ∧ RoundsToBits 64 v q ∧ newFromBig R = .ok (h, acc) ∧
    ((2 : ℚ) ^ (-16382 : ℤ) ≤ v → v < extended.overflowAt → h.Canonical ∧ extended.RoundsTo s v h.code ∧ acc = .exact) ∧
    ((2 : ℚ) ^ (-16445 : ℤ) ≤ q → q < (2 : ℚ) ^ (-16382 : ℤ) → h.val = .num s (⌊q * 2 ^ (16445 : ℤ)⌋ * (2 : ℚ) ^ (-16445 : ℤ)))

theorem returned (h : RoundedOf extended s v R) : Returned s v R := by
  obtain ⟨h1, ⟨q, q0, q1, q2⟩, h3⟩ := h
  obtain ⟨i, hi1, hi2⟩ := exists_mem_Ico_zpow q0 (by norm_num : (1 : ℚ) < 2)
  obtain ⟨h, acc, hr, a1, a2, -⟩ := C66_float80x86 R h1 (e := i + 1) q1 (by rwa [add_sub_cancel_right]) hi2
  refine ⟨q, h, acc, q1, q2, hr, fun g1 g2 => ?_, fun g1 g2 => ?_⟩
  · obtain ⟨e, he, hd, hs⟩ := h3 g1 g2
    obtain ⟨f, hf, hcan, rfl⟩ := newFromBig_of_decode h1 he hd
    rw [hr] at hf
    obtain ⟨rfl, rfl⟩ := Prod.mk.inj (Except.ok.inj hf)
    exact ⟨hcan, hs, rfl⟩
  · have l1 := two_lt (g1.trans_lt hi2)
    have l2 := two_lt (hi1.trans_lt g2)
    exact a2 (by omega) (by omega)

/-- C108 for float80x86 -/
theorem C108_float80x86 {f g : Float} (hf : f.val = .num s m) (hg : g.val = .num s' m') (h0 : m ≠ 0) (h0' : m' ≠ 0)
    (hz : z.prec = 64) (hmode : z.mode = .toNearestEven) :
    ∃ x y, f.big = .ok (x, false) ∧ g.big = .ok (y, false) ∧ Returned (s != s') (m * m') (z.mul x y) ∧ Returned (s != s') (m / m') (z.quo x y) := by
  obtain ⟨x, nx, hx, px, -, -, wx, dx⟩ := C20_float80x86_big f
  obtain ⟨y, ny, hy, py, -, -, wy, dy⟩ := C20_float80x86_big g
  obtain ⟨c, -, hc⟩ := exists_canonical f (fun _ h => by rw [hf] at h; cases h)
  obtain ⟨c', -, hc'⟩ := exists_canonical g (fun _ h => by rw [hg] at h; cases h)
  rw [hf] at dx hc; rw [hg] at dy hc'
  obtain ⟨rfl, dx⟩ := dx
  obtain ⟨rfl, dy⟩ := dy
  have h := mul_quo_result (F := extended) (by decide) (by decide) (by decide) (by decide) (by decide) (by decide) (by decide) hz hmode wx wy dx dy hc hc' h0 h0'
  exact ⟨x, y, hx, hy, returned h.1, returned h.2⟩

end Float80x86

-- -11/8 times and divided by itself
example := Binary16.C108_binary16 (z := ⟨11, .toNearestEven, .exact, .zero, false, 0, 0⟩) (f := ⟨0xBD80⟩) (g := ⟨0xBD80⟩) Sample.x_half Sample.x_half (by norm_num)
  (by norm_num) rfl rfl
example := Binary128.C108_binary128 (z := ⟨113, .toNearestEven, .exact, .zero, false, 0, 0⟩) (f := ⟨0xBFFF600000000000, 0⟩) (g := ⟨0xBFFF600000000000, 0⟩)
  Sample.x_quad Sample.x_quad (by norm_num) (by norm_num) rfl rfl
example := Float80x86.C108_float80x86 (z := ⟨64, .toNearestEven, .exact, .zero, false, 0, 0⟩) (f := ⟨0xBFFF, 0xB000000000000000⟩) (g := ⟨0xBFFF, 0xB000000000000000⟩)
  Sample.x_extended Sample.x_extended (by norm_num) (by norm_num) rfl rfl
-- the products are in the normal range
example : (2 : ℚ) ^ (-14 : ℤ) ≤ 11 / 8 * (11 / 8) ∧ (11 / 8 * (11 / 8) : ℚ) < half.overflowAt := by norm_num [half, Format.overflowAt, Format.bias]
example : (11 / 8 * (11 / 8) : ℚ) < quad.overflowAt ∧ (11 / 8 * (11 / 8) : ℚ) < extended.overflowAt :=
  ⟨lt_of_lt_of_le (by norm_num) (four_le_overflow (F := quad) (by decide)), lt_of_lt_of_le (by norm_num) (four_le_overflow (F := extended) (by decide))⟩

/-- Below the normal range the result need not be the nearest number: half of 3 units of 2^-24 comes out as 1 unit, and it should be 2, the even one of
the two nearest. -/
theorem Binary16.C108_below : ∃ x y acc, (⟨0x0003⟩ : Binary16.Float).big = .ok (x, false) ∧ (⟨0x3800⟩ : Binary16.Float).big = .ok (y, false) ∧
    newFromBig (BigFloat.mul ⟨11, .toNearestEven, .exact, .zero, false, 0, 0⟩ x y) = .ok (⟨0x0001⟩, acc) ∧
    ¬ half.RoundsTo false (3 / 2 * (2 : ℚ) ^ (-24 : ℤ)) 1 ∧ half.RoundsTo false (3 / 2 * (2 : ℚ) ^ (-24 : ℤ)) 2 := by
  have hq : half.qmin = -24 := by decide
  have key : ∀ {n : ℕ}, n < 4 → (half.RoundsTo false (3 / 2 * (2 : ℚ) ^ (-24 : ℤ)) n ↔ NearestEven (3 / 2) n) := fun {n} hn => by
    have hi : n < half.infCode := lt_of_lt_of_le hn (by decide)
    have e : half.signPart false + n = n := by simp [Format.signPart]
    have := roundsTo_iff half (by decide) (by decide) false hi (q := 3 / 2 * (2 : ℚ) ^ (-24 : ℤ)) (by positivity)
    rw [e] at this
    rw [this, interval_low half (by show n + 1 ≤ 2 ^ 11; omega) (by positivity), hq]
    norm_num
  refine ⟨_, _, _, rfl, rfl, rfl, ?_, ?_⟩
  · rw [key (by norm_num)]
    intro h
    norm_num [NearestEven] at h
  · rw [key (by norm_num)]
    norm_num [NearestEven]

end GoFloat
