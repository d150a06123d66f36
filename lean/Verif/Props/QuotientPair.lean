import Verif.Props.ProductPair
/-
C110: the quotient of two float64 values by way of float128ppc.
-/
namespace GoFloat.Float128ppc
open Spec

variable {z : BigFloat} {x y : F64} {s s' : Bool} {m m' : ℚ}

/-- A power of two past the last integer of `p` bits has few bits too. -/
theorem unit_fits {p : ℕ} {n q : ℤ} (hp : 1 ≤ p) (hn0 : 0 ≤ n) (hn : n ≤ 2 ^ p) : ∃ k e : ℤ, |k| < 2 ^ p ∧ (n : ℚ) * (2 : ℚ) ^ q = k * (2 : ℚ) ^ e := by
  rcases hn.lt_or_eq with h | h
  · exact ⟨n, q, by rwa [abs_of_nonneg hn0], rfl⟩
  · refine ⟨1, p + q, by rw [abs_one]; exact one_lt_pow₀ (by norm_num) (by omega), ?_⟩
    rw [h, zpow_add₀ (by norm_num)]
    push_cast
    rw [zpow_natCast]
    ring

/-- What is rounded to a multiple of the unit is at most half a unit away from it. -/
theorem half_unit {p : ℕ} (hp : 1 ≤ p) {a b : ℚ} (h : RoundsToBits p a b) {n q : ℤ} (hn0 : 1 ≤ n) (hn : n ≤ 2 ^ p) (hb : b = n * (2 : ℚ) ^ q)
    (ha : a < (2 : ℚ) ^ p * 2 ^ q) : 2 * |a - b| ≤ (2 : ℚ) ^ q := by
  have hq : (0 : ℚ) < (2 : ℚ) ^ q := zpow_pos (by norm_num) q
  rcases le_total b a with hle | hle
  · rw [abs_of_nonneg (by linarith)]
    rcases hn.lt_or_eq with hlt | heq
    · obtain ⟨k, e, h1, h2⟩ := unit_fits (q := q) hp (show 0 ≤ n + 1 by omega) (show n + 1 ≤ 2 ^ p by omega)
      have h3 := h.2.1 k e h1
      rw [← h2, abs_of_nonneg (by linarith)] at h3
      push_cast at h3
      have e : a - (n + 1) * (2 : ℚ) ^ q = a - b - 2 ^ q := by rw [hb]; ring
      rw [e] at h3
      rcases abs_cases (a - b - (2 : ℚ) ^ q) with ⟨h4, -⟩ | ⟨h4, -⟩ <;> rw [h4] at h3 <;> linarith
    · exfalso
      rw [hb, heq] at hle
      push_cast at hle
      linarith
  · rw [abs_of_nonpos (by linarith)]
    obtain ⟨k, e, h1, h2⟩ := unit_fits (q := q) hp (show 0 ≤ n - 1 by omega) (show n - 1 ≤ 2 ^ p by omega)
    have h3 := h.2.1 k e h1
    rw [← h2, abs_of_nonpos (by linarith)] at h3
    push_cast at h3
    have e : a - (n - 1) * (2 : ℚ) ^ q = a - b + 2 ^ q := by rw [hb]; ring
    rw [e] at h3
    rcases abs_cases (a - b + (2 : ℚ) ^ q) with ⟨h4, -⟩ | ⟨h4, -⟩ <;> rw [h4] at h3 <;> linarith

theorem one_le_abs {n : ℤ} {u : ℚ} (hu : 0 < u) (h : (n : ℚ) * u ≠ 0) : u ≤ |(n : ℚ) * u| := by
  have hn : n ≠ 0 := by rintro rfl; simp at h
  have h1 : (1 : ℚ) ≤ |(n : ℚ)| := by exact_mod_cast Int.one_le_abs hn
  rw [abs_mul, abs_of_pos hu]
  exact le_mul_of_one_le_left hu.le h1

/-- A quotient of integers of 53 bits is not so near to a point half way between two floats that rounding it to 106 bits would lead there. -/
theorem quotient_not_misled {N M i j : ℤ} (hN0 : 0 < N) (hM0 : 0 < M) (hN : N < 2 ^ 53) (hM : M < 2 ^ 53) {a b : ℚ}
    (ha : a * (M * (2 : ℚ) ^ j) = N * (2 : ℚ) ^ i) (hb : RoundsToBits 106 a b) : ¬ Misled double a b := by
  have hpw : ∀ e : ℤ, (0 : ℚ) < (2 : ℚ) ^ e := fun e => zpow_pos (by norm_num) e
  have hMq : (0 : ℚ) < M := by exact_mod_cast hM0
  have hNq : (0 : ℚ) < N := by exact_mod_cast hN0
  have hMq' : (M : ℚ) < 2 ^ 53 := by exact_mod_cast hM
  have hNq' : (N : ℚ) < 2 ^ 53 := by exact_mod_cast hN
  have hMj : (0 : ℚ) < M * (2 : ℚ) ^ j := mul_pos hMq (hpw j)
  have ha0 : 0 < a := by
    by_contra hle
    push Not at hle
    have h1 := mul_nonpos_of_nonpos_of_nonneg hle hMj.le
    have h2 := mul_pos hNq (hpw i)
    linarith
  rintro ⟨c, hc, hif⟩
  have hne : a - b ≠ 0 := by split at hif <;> intro h <;> linarith
  rw [halfway_iff double (by decide)] at hc
  obtain ⟨K, e, hK, hKe⟩ := halfway_fits double (p := 54) hc.1 (by decide)
  have hbK : b = K * (2 : ℚ) ^ e := by linarith [hc.2]
  obtain ⟨l, hl1, hl2⟩ := exists_mem_Ico_zpow ha0 (show (1 : ℚ) < 2 by norm_num)
  obtain ⟨q, rfl⟩ : ∃ q, l = q + 105 := ⟨l - 105, by ring⟩
  have hq := hpw q
  -- the rounded number is in the same binade, or at the end of it
  have b1 : (2 : ℚ) ^ (q + 105) ≤ b := by
    have h := ge_of_ge hb (K := 1) (e := q + 105) (by norm_num) (by simpa using hl1)
    simpa using h
  have b2 : b ≤ (2 : ℚ) ^ (q + 106) := by
    have h := le_of_le hb (K := 1) (e := q + 106) (by norm_num) (by
      have : q + 105 + 1 = q + 106 := by ring
      rw [this] at hl2
      simpa using hl2.le)
    simpa using h
  have hKq : (K : ℚ) < 2 ^ 54 := by exact_mod_cast (abs_lt.1 hK).2
  have hlt : (2 : ℚ) ^ (q + 105) < (2 : ℚ) ^ (e + 54) := by
    refine b1.trans_lt ?_
    rw [hbK, zpow_add₀ (by norm_num), mul_comm]
    exact mul_lt_mul_of_pos_left (by exact_mod_cast hKq) (hpw e)
  have hqe := two_lt hlt
  obtain ⟨g, hg⟩ : ∃ g : ℕ, e = q + g := ⟨(e - q).toNat, by omega⟩
  have hbn : b = ((K * 2 ^ g : ℤ) : ℚ) * (2 : ℚ) ^ q := by
    rw [hbK, hg, zpow_add₀ (by norm_num), zpow_natCast]; push_cast; ring
  have hb0 : 0 < b := (hpw _).trans_le b1
  have hn1 : (1 : ℤ) ≤ K * 2 ^ g := by
    by_contra hle
    have h1 : K * 2 ^ g ≤ 0 := by omega
    have h2 : ((K * 2 ^ g : ℤ) : ℚ) ≤ 0 := by exact_mod_cast h1
    have h3 := mul_nonpos_of_nonpos_of_nonneg h2 hq.le
    rw [← hbn] at h3
    linarith
  have hn2 : K * 2 ^ g ≤ 2 ^ 106 := by
    rw [add_comm, zpow_add₀ (by norm_num), hbn] at b2
    have h := le_of_mul_le_mul_right b2 hq
    exact_mod_cast h
  have hhalf := half_unit (by norm_num) hb hn1 hn2 hbn (by
    have : q + 105 + 1 = 106 + q := by ring
    rw [this, zpow_add₀ (by norm_num)] at hl2
    exact_mod_cast hl2)
  have hdpos : 0 < |a - b| := abs_pos.2 hne
  have hprod : |a - b| * (M * (2 : ℚ) ^ j) = |(a - b) * (M * (2 : ℚ) ^ j)| := by rw [abs_mul, abs_of_pos hMj]
  have hprod0 : (a - b) * (M * (2 : ℚ) ^ j) ≠ 0 := mul_ne_zero hne hMj.ne'
  have hexp : (a - b) * (M * (2 : ℚ) ^ j) = N * (2 : ℚ) ^ i - K * M * (2 : ℚ) ^ (e + j) := by
    rw [sub_mul, ha, hbK, zpow_add₀ (by norm_num)]; ring
  rcases le_total i (e + j) with hij | hij
  · obtain ⟨d, hd⟩ : ∃ d : ℕ, e + j = i + d := ⟨(e + j - i).toNat, by omega⟩
    have h1 : (a - b) * (M * (2 : ℚ) ^ j) = ((N - K * M * 2 ^ d : ℤ) : ℚ) * (2 : ℚ) ^ i := by
      rw [hexp, hd, zpow_add₀ (by norm_num), zpow_natCast]; push_cast; ring
    have h2 := one_le_abs (hpw i) (h1 ▸ hprod0)
    rw [← h1, ← hprod] at h2
    have h3 : a * (M * (2 : ℚ) ^ j) < 2 ^ 53 * |a - b| * (M * (2 : ℚ) ^ j) := by
      rw [ha, mul_assoc]
      exact (mul_lt_mul_of_pos_right hNq' (hpw i)).trans_le (mul_le_mul_of_nonneg_left h2 (by norm_num))
    have h4 := lt_of_mul_lt_mul_right h3 hMj.le
    rw [zpow_add₀ (by norm_num)] at hl1
    norm_num at hl1 h4
    linarith
  · obtain ⟨d, hd⟩ : ∃ d : ℕ, i = e + j + d := ⟨(i - (e + j)).toNat, by omega⟩
    have h1 : (a - b) * (M * (2 : ℚ) ^ j) = ((N * 2 ^ d - K * M : ℤ) : ℚ) * (2 : ℚ) ^ (e + j) := by
      rw [hexp, hd, zpow_add₀ (by norm_num) (e + j) d, zpow_natCast]; push_cast; ring
    have h2 := one_le_abs (hpw (e + j)) (h1 ▸ hprod0)
    rw [← h1, ← hprod, zpow_add₀ (by norm_num), ← mul_assoc] at h2
    have h3 := le_of_mul_le_mul_right h2 (hpw j)
    have h4 : |a - b| * M < |a - b| * 2 ^ 53 := mul_lt_mul_of_pos_left hMq' hdpos
    have h5 : (2 : ℚ) ^ e < (2 : ℚ) ^ (q + 52) := by
      rw [zpow_add₀ (by norm_num)]
      norm_num at h4 ⊢
      linarith
    have := two_lt h5
    omega

/-- The magnitude of a float64 that is not zero, as an integer of 53 bits and a power of two. -/
theorem magnitude_form (h : double.decode x.toNat = .num s m) (h0 : 0 < m) : ∃ N i : ℤ, 0 < N ∧ N < 2 ^ 53 ∧ m = N * (2 : ℚ) ^ i := by
  obtain ⟨k, e, hk, -, hke⟩ := value_form h
  have hp : (0 : ℚ) < (2 : ℚ) ^ e := zpow_pos (by norm_num) e
  have h1 : m = ((|k| : ℤ) : ℚ) * (2 : ℚ) ^ e := by
    have h2 := congrArg abs hke
    rw [BigFloat.signed_abs h0.le, abs_mul, abs_of_pos hp] at h2
    rw [h2]; push_cast; rfl
  refine ⟨|k|, e, abs_pos.2 ?_, hk, h1⟩
  rintro rfl
  simp at h1
  linarith

/-- C110: two float64 values that are not zero, as double-doubles, divided with 106 bits. -/
theorem C110_quotient (hx : double.decode x.toNat = .num s m) (hy : double.decode y.toNat = .num s' m') (h0 : m ≠ 0) (h0' : m' ≠ 0)
    (hz : z.prec = 106) (hmode : z.mode = .toNearestEven) :
    ∃ X Y, newFromFloat64 x = .ok (newFromBits x 0, .exact) ∧ newFromFloat64 y = .ok (newFromBits y 0, .exact) ∧
      (newFromBits x 0).big = .ok (X, false) ∧ (newFromBits y 0).big = .ok (Y, false) ∧
      (double.overflowAt ≤ m / m' → newFromBig (z.quo X Y) = .error .errNaN) ∧
      (m / m' < double.overflowAt → ∃ h r a₁ k₁ a₂ k₂, newFromBig (z.quo X Y) = .ok ((h, .exact), r) ∧ double.decode h.high.toNat = .num a₁ k₁ ∧
        double.decode h.low.toNat = .num a₂ k₂ ∧ double.RoundsTo (s != s') (m / m') h.high.toNat ∧
        ((2 : ℚ) ^ (-969 : ℤ) ≤ m / m' → RoundsToBits 106 (signed s m / signed s' m') (signed a₁ k₁ + signed a₂ k₂))) := by
  obtain ⟨X, x1, x2, wx, dx⟩ := big_single hx h0
  obtain ⟨Y, y1, y2, wy, dy⟩ := big_single hy h0'
  refine ⟨X, Y, x1, y1, x2, y2, ?_⟩
  obtain ⟨f1, v1, n1⟩ := nonzero_form wx dx h0
  obtain ⟨f2, v2, n2⟩ := nonzero_form wy dy h0'
  obtain ⟨l1, u1⟩ := nonzero_range (by decide) hx h0
  obtain ⟨l2, u2⟩ := nonzero_range (by decide) hy h0'
  rw [show double.qmin = -1074 by decide] at l1 l2
  rw [show double.bias + 1 = 1024 by decide] at u1 u2
  have hpw : ∀ e : ℤ, (0 : ℚ) < (2 : ℚ) ^ e := fun e => zpow_pos (by norm_num) e
  have hm : 0 < m := (hpw _).trans_le l1
  have hm' : 0 < m' := (hpw _).trans_le l2
  have hv0 : 0 < m / m' := div_pos hm hm'
  have hsg : signed s m / signed s' m' = signed (s != s') (m / m') := by unfold signed; cases s <;> cases s' <;> simp [neg_div, div_neg]
  have habs : |signed s m / signed s' m'| = m / m' := by rw [hsg, BigFloat.signed_abs hv0.le]
  obtain ⟨-, g⟩ := BigFloat.C91_mul_quo (z := z) (by omega) (by rw [hz]; decide) wx wy f1 f2
  rw [v1, v2, n1, n2, hz, hmode] at g
  obtain ⟨-, b2, b3, b4, b5⟩ := g
  have hlo : (2 : ℚ) ^ (-2098 : ℤ) ≤ m / m' := by
    rw [le_div_iff₀ hm']
    refine le_trans ?_ l1
    rw [show (-1074 : ℤ) = -2098 + 1024 by norm_num, zpow_add₀ (by norm_num)]
    exact mul_le_mul_of_nonneg_left u2.le (hpw _).le
  have hhi : m / m' ≤ (2 : ℚ) ^ (2098 : ℤ) := by
    rw [div_le_iff₀ hm']
    refine u1.le.trans ?_
    rw [show (1024 : ℤ) = 2098 + -1074 by norm_num, zpow_add₀ (by norm_num)]
    exact mul_le_mul_of_nonneg_left l2 (hpw _).le
  have hfin : (z.quo X Y).form = .finite ∧ RoundsToBits 106 (signed s m / signed s' m') (z.quo X Y).sval := by
    rcases b5 with ⟨h1, h2, -⟩ | ⟨-, -, h⟩ | ⟨-, -, h⟩
    · exact ⟨h1, h2.2⟩
    · rw [habs] at h
      exact absurd (hlo.trans_lt h) (not_lt.2 (zpow_le_zpow_right₀ (by norm_num) (by decide)))
    · exfalso
      have hlt : (2 : ℚ) ^ (2098 : ℤ) < (2 : ℚ) ^ BigFloat.MaxExp := zpow_lt_zpow_right₀ (by norm_num) (by decide)
      rcases h with h | h
      · rw [habs] at h
        exact absurd (h.trans hhi) (not_le.2 hlt)
      · have h2 := rounded_cap h.2 (le_of_eq_of_le habs hhi)
        rw [BigFloat.signed_abs (hpw _).le] at h2
        exact absurd h2 (not_le.2 hlt)
  obtain ⟨hf, hs⟩ := hfin
  obtain ⟨v, hv, q1, q2⟩ := newFromBig_mode b4 hf
  have hvs : v = (z.quo X Y).sval := by
    rw [b2] at hv
    obtain ⟨k, e, hk, he⟩ := hs.1
    exact eq_of_fits hv.2 hk he
  -- the magnitude of the quotient is rounded to the magnitude
  have hval : (z.quo X Y).sval = signed (s != s') |(z.quo X Y).sval| := by
    rw [BigFloat.sval_finite hf, b3, BigFloat.signed_abs (BigFloat.mag_pos (b4.mant_pos hf)).le]
  have hround : RoundsToBits 106 (m / m') |(z.quo X Y).sval| := by
    have h := hs
    rw [hsg, hval] at h
    exact roundsToBits_mag h
  obtain ⟨N, i, e1, e2, e3⟩ := magnitude_form hx hm
  obtain ⟨M, j, e1', e2', e3'⟩ := magnitude_form hy hm'
  have hno : ¬ Misled double (m / m') |(z.quo X Y).sval| :=
    quotient_not_misled (i := i) (j := j) e1 e1' e2 e2' (by rw [← e3, ← e3']; exact div_mul_cancel₀ m hm'.ne') hround
  have hto : ∀ {c : ℕ}, double.RoundsTo (s != s') |(z.quo X Y).sval| c → double.RoundsTo (s != s') (m / m') c := fun hc =>
    (twice_iff double (by decide) (by decide) (by decide) hv0.le (abs_nonneg _) hround hc).2 hno
  rw [hvs] at q1 q2
  rcases le_or_gt double.overflowAt |(z.quo X Y).sval| with hov | hov
  · refine ⟨fun _ => q1 hov, fun hlt => ?_⟩
    exfalso
    have hinf : double.RoundsTo (s != s') |(z.quo X Y).sval| (double.signPart (s != s') + double.infCode) := by
      unfold Format.RoundsTo
      rw [if_pos hov]
      exact double.decode_inf _
    have h := hto hinf
    unfold Format.RoundsTo at h
    rw [if_neg (not_le.2 hlt), double.decode_inf] at h
    obtain ⟨r, hr, -⟩ := h
    cases hr
  · obtain ⟨hi, lo, rh, r', c1, -, -, c2, -, c5, -⟩ := q2 hov
    rw [b3] at c5 c2
    have hc := hto c5
    refine ⟨fun hle => ?_, fun hlt => ?_⟩
    · exfalso
      unfold Format.RoundsTo at hc
      rw [if_pos hle, c2] at hc
      cases hc
    · obtain ⟨-, a₁, k₁, a₂, k₂, d1, d2, d3⟩ := C99_exact _ b4 hf c1
      refine ⟨_, r', a₁, k₁, a₂, k₂, c1, d1, d2, hc, fun h => ?_⟩
      obtain ⟨k, e, hk, he⟩ := hs.1
      rw [d3.2 ((holdable_iff hk he).2 ?_)]
      · exact hs
      · have h2 := ge_of_ge hround (K := 1) (e := -969) (by norm_num) (by simpa using h)
        simpa using h2

/-- C110 is not vacuous: 1/10, that is the float64 nearest to it, divided by -11/8. -/
example := C110_quotient (z := { prec := 106, mode := .toNearestEven, acc := .exact, form := .zero, neg := false, mant := 0, exp := 0 })
  decode_tenth Sample.x_double (by norm_num) (by norm_num) rfl rfl

end GoFloat.Float128ppc
