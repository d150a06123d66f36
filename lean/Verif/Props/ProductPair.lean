import Verif.Props.SumPair
import Verif.Props.Product
/-
C109: the product of two float64 values by way of float128ppc.
-/
namespace GoFloat.Float128ppc
open Spec

variable {z : BigFloat} {x y : F64} {s s' : Bool} {m m' : ℚ}

/-- A number of at most 106 bits can be held exactly if it is a multiple of the smallest subnormal double; it is if it is not below 2^-969. -/
theorem holdable_iff {v : ℚ} {k e : ℤ} (hk : |k| < 2 ^ 106) (hv : v = k * (2 : ℚ) ^ e) :
    (Holdable v ↔ ∃ j : ℤ, v = j * (2 : ℚ) ^ (-1074 : ℤ)) ∧ ((2 : ℚ) ^ (-969 : ℤ) ≤ |v| → Holdable v) := by
  have hp : ∀ e : ℤ, (0 : ℚ) < (2 : ℚ) ^ e := fun e => zpow_pos (by norm_num) e
  have habs : |v| = |(k : ℚ)| * (2 : ℚ) ^ e := by rw [hv, abs_mul, abs_of_pos (hp e)]
  refine ⟨⟨holdable_multiple, ?_⟩, fun h => ?_⟩
  · rintro ⟨j, hj⟩
    rcases le_or_gt (-1074) e with he | he
    · exact ⟨k, e, hk, he, hv⟩
    · refine ⟨j, -1074, lt_of_le_of_lt ?_ hk, le_rfl, hj⟩
      have h1 : |(j : ℚ)| * (2 : ℚ) ^ (-1074 : ℤ) = |(k : ℚ)| * (2 : ℚ) ^ e := by rw [← habs, hj, abs_mul, abs_of_pos (hp (-1074))]
      have h2 : |(k : ℚ)| * (2 : ℚ) ^ e ≤ |(k : ℚ)| * (2 : ℚ) ^ (-1074 : ℤ) :=
        mul_le_mul_of_nonneg_left (zpow_le_zpow_right₀ (by norm_num) he.le) (abs_nonneg _)
      have h3 : |(j : ℚ)| ≤ |(k : ℚ)| := le_of_mul_le_mul_right (h1.le.trans h2) (hp (-1074))
      exact_mod_cast h3
  · refine ⟨k, e, hk, ?_, hv⟩
    have h1 : |(k : ℚ)| < 2 ^ 106 := by exact_mod_cast hk
    have h2 : |v| < 2 ^ 106 * (2 : ℚ) ^ e := by rw [habs]; exact mul_lt_mul_of_pos_right h1 (hp e)
    rw [← zpow_natCast, ← zpow_add₀ (by norm_num)] at h2
    have := two_lt (h.trans_lt h2)
    push_cast at this
    omega

theorem decode_zero : double.decode (0 : F64).toNat = .num false 0 := by
  show double.decode 0 = _
  norm_num [double, Format.decode, Format.bias]

/-- What `Big` returns for a float64 that was embedded. -/
theorem big_single (h : double.decode x.toNat = .num s m) (h0 : m ≠ 0) :
    ∃ X, newFromFloat64 x = .ok (newFromBits x 0, .exact) ∧ (newFromBits x 0).big = .ok (X, false) ∧ X.WF ∧ X.datum = .num s m := by
  obtain ⟨k, e, hk, -, hke⟩ := value_form h
  have hfit : ∃ k e : ℤ, |k| < 2 ^ 106 ∧ signed s m = k * (2 : ℚ) ^ e :=
    ⟨k, e, hk.trans (pow_lt_pow_right₀ (by norm_num) (by decide)), hke⟩
  obtain ⟨X, a, q, h1, -, h3, h4, h5, -⟩ := big_held (f := newFromBits x 0) (s₁ := s) (m₁ := m) (s₂ := false) (m₂ := 0) (u := signed s m) h decode_zero
    (by simpa [signed] using roundsToBits_self hfit)
  refine ⟨X, (C28_float128ppc_float64 x (fun b => by rw [h]; simp)).1, h1, h3, ?_⟩
  have hm0 : 0 ≤ m := by obtain ⟨n, -, rfl, -⟩ := double.code_of_decode h; exact double.magc_nonneg n
  have hpos : 0 < m := lt_of_le_of_ne hm0 (Ne.symm h0)
  have hq0 : 0 ≤ q := by
    unfold BigFloat.datum at h4
    cases hf : X.form
    · simp only [hf] at h4
      exact (Datum.num.inj h4).2.le
    · simp only [hf] at h4
      exact (BigFloat.mag_pos (h3.mant_pos hf)).le.trans (Datum.num.inj h4).2.le
    · simp only [hf] at h4
      cases h4
  rw [h4]
  cases a <;> cases s <;> simp only [signed, if_true, Bool.false_eq_true, if_false] at h5
  · rw [h5]
  · exfalso; linarith
  · exfalso; linarith
  · rw [neg_inj.1 h5]

/-- C109: two float64 values that are not zero, as double-doubles, multiplied with 106 bits. -/
theorem C109_product (hx : double.decode x.toNat = .num s m) (hy : double.decode y.toNat = .num s' m') (h0 : m ≠ 0) (h0' : m' ≠ 0)
    (hz : z.prec = 106) (hmode : z.mode = .toNearestEven) :
    ∃ X Y, newFromFloat64 x = .ok (newFromBits x 0, .exact) ∧ newFromFloat64 y = .ok (newFromBits y 0, .exact) ∧
      (newFromBits x 0).big = .ok (X, false) ∧ (newFromBits y 0).big = .ok (Y, false) ∧
      (double.overflowAt ≤ m * m' → newFromBig (z.mul X Y) = .error .errNaN) ∧
      (m * m' < double.overflowAt → ∃ h r a₁ k₁ a₂ k₂, newFromBig (z.mul X Y) = .ok ((h, .exact), r) ∧ double.decode h.high.toNat = .num a₁ k₁ ∧
        double.decode h.low.toNat = .num a₂ k₂ ∧ double.RoundsTo (s != s') (m * m') h.high.toNat ∧
        (signed a₁ k₁ + signed a₂ k₂ = signed s m * signed s' m' ↔ ∃ j : ℤ, m * m' = j * (2 : ℚ) ^ (-1074 : ℤ)) ∧
        ((2 : ℚ) ^ (-969 : ℤ) ≤ m * m' → signed a₁ k₁ + signed a₂ k₂ = signed s m * signed s' m')) := by
  obtain ⟨X, x1, x2, wx, dx⟩ := big_single hx h0
  obtain ⟨Y, y1, y2, wy, dy⟩ := big_single hy h0'
  refine ⟨X, Y, x1, y1, x2, y2, ?_⟩
  obtain ⟨f1, v1, n1⟩ := nonzero_form wx dx h0
  obtain ⟨f2, v2, n2⟩ := nonzero_form wy dy h0'
  obtain ⟨l1, u1⟩ := nonzero_range (by decide) hx h0
  obtain ⟨l2, u2⟩ := nonzero_range (by decide) hy h0'
  have hpw : ∀ e : ℤ, (0 : ℚ) < (2 : ℚ) ^ e := fun e => zpow_pos (by norm_num) e
  have hm : 0 < m := (hpw _).trans_le l1
  have hm' : 0 < m' := (hpw _).trans_le l2
  have hv0 : 0 < m * m' := mul_pos hm hm'
  obtain ⟨K, q, k1, -, k3⟩ := value_form hx
  obtain ⟨K', q', k1', -, k3'⟩ := value_form hy
  have hKK : |K * K'| < 2 ^ 106 := by
    rw [abs_mul]
    calc |K| * |K'| < 2 ^ 53 * 2 ^ 53 := mul_lt_mul'' k1 k1' (abs_nonneg _) (abs_nonneg _)
      _ = 2 ^ 106 := by norm_num
  have hprod : signed s m * signed s' m' = ((K * K' : ℤ) : ℚ) * (2 : ℚ) ^ (q + q') := by
    rw [k3, k3', zpow_add₀ (by norm_num)]; push_cast; ring
  have hsg : signed s m * signed s' m' = signed (s != s') (m * m') := by unfold signed; cases s <;> cases s' <;> simp
  have habs : |signed s m * signed s' m'| = m * m' := by rw [hsg, BigFloat.signed_abs hv0.le]
  obtain ⟨g, -⟩ := BigFloat.C91_mul_quo (z := z) (by omega) (by rw [hz]; decide) wx wy f1 f2
  rw [v1, v2, n1, n2, hz, hmode] at g
  obtain ⟨-, b2, b3, b4, b5⟩ := g
  have hlo : (2 : ℚ) ^ (-2148 : ℤ) ≤ m * m' := by
    rw [show double.qmin = -1074 by decide] at l1 l2
    rw [show (-2148 : ℤ) = -1074 + -1074 by norm_num, zpow_add₀ (by norm_num)]
    exact mul_le_mul l1 l2 (hpw _).le hm.le
  have hhi : m * m' ≤ (2 : ℚ) ^ (2048 : ℤ) := by
    rw [show double.bias + 1 = 1024 by decide] at u1 u2
    rw [show (2048 : ℤ) = 1024 + 1024 by norm_num, zpow_add₀ (by norm_num)]
    exact mul_le_mul u1.le u2.le hm'.le (hpw _).le
  have hfin : (z.mul X Y).form = .finite ∧ (z.mul X Y).sval = signed s m * signed s' m' := by
    rcases b5 with ⟨h1, h2, -⟩ | ⟨-, -, h⟩ | ⟨-, -, h⟩
    · exact ⟨h1, eq_of_fits h2.2 hKK hprod⟩
    · rw [habs] at h
      exact absurd (hlo.trans_lt h) (not_lt.2 (zpow_le_zpow_right₀ (by norm_num) (by decide)))
    · exfalso
      have hlt : (2 : ℚ) ^ (2048 : ℤ) < (2 : ℚ) ^ BigFloat.MaxExp := zpow_lt_zpow_right₀ (by norm_num) (by decide)
      rcases h with h | h
      · rw [habs] at h
        exact absurd (h.trans hhi) (not_le.2 hlt)
      · have h2 := eq_of_fits h.2 hKK hprod
        have h3 := habs
        rw [← h2, BigFloat.signed_abs (hpw _).le] at h3
        exact absurd (h3.le.trans hhi) (not_le.2 hlt)
  obtain ⟨hf, hs⟩ := hfin
  obtain ⟨v, hv, q1, q2⟩ := newFromBig_mode b4 hf
  have hvs : v = signed s m * signed s' m' := by
    rw [b2, hs] at hv
    exact eq_of_fits hv.2 hKK hprod
  rw [hvs, habs] at q1 q2
  refine ⟨q1, fun hlt => ?_⟩
  obtain ⟨hi, lo, rh, r', c1, -, -, -, -, c5, -⟩ := q2 hlt
  obtain ⟨-, a₁, k₁, a₂, k₂, d1, d2, d3⟩ := C99_exact _ b4 hf c1
  rw [hs] at d3
  obtain ⟨e1, e2⟩ := holdable_iff hKK hprod
  refine ⟨_, r', a₁, k₁, a₂, k₂, c1, d1, d2, by rw [← b3]; exact c5, d3.trans (e1.trans ?_), fun h => d3.2 (e2 (by rw [habs]; exact h))⟩
  rw [hsg]
  cases (s != s')
  · simp [signed]
  · simp only [signed, if_true]
    constructor
    · rintro ⟨j, hj⟩
      exact ⟨-j, by rw [Int.cast_neg, neg_mul, ← hj, neg_neg]⟩
    · rintro ⟨j, hj⟩
      exact ⟨-j, by rw [Int.cast_neg, neg_mul, ← hj]⟩

/-- C109 is not vacuous: -11/8 times itself. -/
example := C109_product (z := { prec := 106, mode := .toNearestEven, acc := .exact, form := .zero, neg := false, mant := 0, exp := 0 })
  Sample.x_double Sample.x_double (by norm_num) (by norm_num) rfl rfl

theorem decode_tenth : double.decode (0x3FB999999999999A : F64).toNat = .num false (3602879701896397 / 2 ^ 55) := by
  show double.decode 0x3FB999999999999A = _
  norm_num [double, Format.decode, Format.bias]

/-- C109 is not vacuous: the product of the float64 nearest to 1/10 by itself is not a float64, and the two parts sum to it. -/
theorem C109_tenth {z : BigFloat} (hz : z.prec = 106) (hmode : z.mode = .toNearestEven) :
    ∃ X h r a₁ k₁ a₂ k₂, (newFromBits 0x3FB999999999999A 0).big = .ok (X, false) ∧ newFromBig (z.mul X X) = .ok ((h, .exact), r) ∧
      double.decode h.high.toNat = .num a₁ k₁ ∧ double.decode h.low.toNat = .num a₂ k₂ ∧
      signed a₁ k₁ + signed a₂ k₂ = (3602879701896397 / 2 ^ 55) ^ 2 := by
  obtain ⟨X, Y, -, -, h3, h4, -, h6⟩ := C109_product decode_tenth decode_tenth (by norm_num) (by norm_num) hz hmode
  obtain rfl : X = Y := by rw [h3] at h4; injection h4 with h; exact congrArg Prod.fst h
  obtain ⟨h, r, a₁, k₁, a₂, k₂, e1, e2, e3, -, -, e6⟩ := h6 (lt_of_lt_of_le (by norm_num) (four_le_overflow (by decide)))
  refine ⟨X, h, r, a₁, k₁, a₂, k₂, h3, e1, e2, e3, ?_⟩
  rw [e6 (le_trans (zpow_le_zpow_right₀ (by norm_num) (by norm_num : (-969 : ℤ) ≤ -10)) (by norm_num))]
  norm_num [signed]

/-- C109: below 2^-969 the product need not be held: 2^-1074 by itself is 2^-2148, and both parts are zero. -/
theorem C109_below : (do
      let (X, _) ← (newFromBits 1 0).big
      let ((h, _), _) ← newFromBig (({ prec := 106, mode := .toNearestEven, acc := .exact, form := .zero, neg := false, mant := 0, exp := 0 } : BigFloat).mul X X)
      pure (h.high, h.low)) = (.ok (0, 0) : Go _) := by
  rfl

end GoFloat.Float128ppc
