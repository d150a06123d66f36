import Verif.Props.ExactChain
/-
No float64 agrees with a decimal of at most 17 digits to a hundred digits unless the two are equal. The distance of the quotient of
a power of two and a power of ten to the fractions with small denominators is bounded by a pair of neighbouring fractions
around the quotient (`gap`, one for every power of ten).
-/
namespace GoFloat
open Spec Strconv

/-- Fractions between two neighbouring fractions have large denominators. -/
theorem neighbours {p1 q1 p2 q2 D N : ℤ} (h : p2 * q1 = p1 * q2 + 1) (hq1 : 0 ≤ q1) (hq2 : 0 ≤ q2) (h1 : N * p1 < D * q1) (h2 : D * q2 < N * p2) :
    q1 + q2 ≤ N := by
  have e : N = q1 * (N * p2 - D * q2) + q2 * (D * q1 - N * p1) := by
    have := congrArg (N * ·) h
    linarith
  have a : q1 * 1 ≤ q1 * (N * p2 - D * q2) := by gcongr; omega
  have b : q2 * 1 ≤ q2 * (D * q1 - N * p1) := by gcongr; omega
  linarith

/-- Two neighbouring fractions around `P / Q`, the sum of whose denominators exceeds `M`. -/
def enclose (P Q M : ℕ) : ℕ → ℕ → ℕ → ℕ → ℕ → ℕ → ℕ → ℕ × ℕ × ℕ × ℕ
  | 0, p1, q1, p2, q2, _, _ => (p1, q1, p2, q2)
  | n + 1, p1, q1, p2, q2, l, u =>
    if M < q1 + q2 then (p1, q1, p2, q2)
    else if u < l then
      let t := (l - 1) / u
      enclose P Q M n (p1 + t * p2) (q1 + t * q2) p2 q2 (l - t * u) u
    else
      let t := (u - 1) / l
      enclose P Q M n p1 q1 (p2 + t * p1) (q2 + t * q1) l (u - t * l)

/-- A fraction `D / N` with `N ≤ M` is not within `P / Q` times `10^-100 / 2` of `P / Q`: checked with the fractions of `enclose`. -/
def gap (P Q M : ℕ) : Bool :=
  match enclose P Q M 200 0 1 1 0 P Q with
  | (p1, q1, p2, q2) =>
    p2 * q1 == p1 * q2 + 1 && Nat.blt M (q1 + q2) && Nat.blt (p1 * Q * 2 * 10 ^ 100 + P * q1) (P * q1 * 2 * 10 ^ 100) &&
      Nat.blt (P * q2 * 2 * 10 ^ 100 + P * q2) (p2 * Q * 2 * 10 ^ 100)

theorem gap_spec {P Q M : ℕ} (h : gap P Q M = true) {D N : ℕ} (hN0 : 0 < N) (hN : N ≤ M)
    (hc : |(D : ℤ) * Q - N * P| * (2 * 10 ^ 100) ≤ N * P) : False := by
  unfold gap at h
  obtain ⟨p1, q1, p2, q2, he⟩ : ∃ p1 q1 p2 q2, enclose P Q M 200 0 1 1 0 P Q = (p1, q1, p2, q2) := ⟨_, _, _, _, rfl⟩
  rw [he] at h
  simp only [Bool.and_eq_true, beq_iff_eq, Nat.blt_eq] at h
  obtain ⟨⟨⟨h1, h2⟩, h3⟩, h4⟩ := h
  zify at h1 h2 h3 h4 hN0 hN
  have hT : (0 : ℤ) < 10 ^ 100 := by positivity
  generalize (10 : ℤ) ^ 100 = T at *
  have b1 : (0 : ℤ) ≤ q1 := by positivity
  have b2 : (0 : ℤ) ≤ q2 := by positivity
  have b3 : (0 : ℤ) ≤ Q := by positivity
  have b4 : (0 : ℤ) ≤ p1 := by positivity
  have b5 : (0 : ℤ) ≤ p2 := by positivity
  have hq1 : (0 : ℤ) < q1 := by
    rcases b1.lt_or_eq with hlt | heq
    · exact hlt
    · exfalso
      rw [← heq] at h3
      have : (0 : ℤ) ≤ p1 * Q * 2 * T := by positivity
      nlinarith
  generalize (p1 : ℤ) = p1 at *
  generalize (p2 : ℤ) = p2 at *
  generalize (q1 : ℤ) = q1 at *
  generalize (q2 : ℤ) = q2 at *
  generalize (P : ℤ) = P at *
  generalize (Q : ℤ) = Q at *
  generalize (N : ℤ) = N at *
  generalize (D : ℤ) = D at *
  obtain ⟨c1, c2⟩ := abs_le.1 (le_refl |D * Q - N * P|)
  rcases le_or_gt (D * q1) (N * p1) with hA | hA
  · -- below
    have e1 : (N * P - D * Q) * (2 * T) ≤ N * P := by
      refine le_trans ?_ hc
      gcongr
      linarith
    have e2 : (N * P - D * Q) * (2 * T) * q1 ≤ N * P * q1 := by gcongr
    have e3 : D * q1 * (Q * (2 * T)) ≤ N * p1 * (Q * (2 * T)) := by gcongr
    have e4 : N * (p1 * Q * 2 * T + P * q1) < N * (P * q1 * 2 * T) := by gcongr
    linarith
  · rcases le_or_gt (N * p2) (D * q2) with hB | hB
    · have e1 : (D * Q - N * P) * (2 * T) ≤ N * P := by
        refine le_trans ?_ hc
        gcongr
      have e2 : (D * Q - N * P) * (2 * T) * q2 ≤ N * P * q2 := by gcongr
      have e3 : N * p2 * (Q * (2 * T)) ≤ D * q2 * (Q * (2 * T)) := by gcongr
      have e4 : N * (P * q2 * 2 * T + P * q2) < N * (p2 * Q * 2 * T) := by gcongr
      linarith
    · have := neighbours h1 b1 b2 hA hB
      linarith

/-- The powers of ten `10^30` to `10^292`. -/
theorem gap_large : ∀ j < 263, gap (2 ^ (Nat.log2 (10 ^ (j + 46)) - 54)) (10 ^ (j + 30)) (2 ^ 60) = true ∧
    2 * 10 ^ (j + 47) ≤ 2 ^ 60 * 2 ^ (Nat.log2 (10 ^ (j + 46)) - 54) := by
  decide +kernel

/-- The powers of ten `10^-30` to `10^-340`. -/
theorem gap_small : ∀ j < 311, gap (10 ^ (j + 30)) (2 ^ (Nat.log2 (10 ^ (j + 14)) + 55)) (2 ^ 60) = true ∧
    2 * 2 ^ (Nat.log2 (10 ^ (j + 14)) + 55) ≤ 2 ^ 60 * 10 ^ (j + 13) := by
  decide +kernel

theorem double_pos {s : Bool} {m : ℚ} {c : ℕ} (hc : double.decode c = .num s m) (h0 : m ≠ 0) : (2 : ℚ) ^ (-1074 : ℤ) ≤ m ∧ m < (2 : ℚ) ^ (1024 : ℤ) := by
  obtain ⟨n, hn, rfl, -⟩ := double.code_of_decode hc
  constructor
  · have h1 : double.magc 1 = (2 : ℚ) ^ (-1074 : ℤ) := by
      unfold Format.magc
      rw [show double.qmin = -1074 by decide]
      norm_num [double]
    rw [← h1]
    apply double.magc_strictMono.monotone
    rcases Nat.eq_zero_or_pos n with rfl | h
    · exact absurd (by norm_num [double, Format.magc]) h0
    · exact h
  · have h1 : double.magc double.infCode = (2 : ℚ) ^ (1024 : ℤ) := by
      have h2 := double.magc_eq (k := 2046) (N := 2 ^ 52) (by decide) (Or.inr (by decide))
      rw [show 2046 * 2 ^ double.t + 2 ^ 52 = double.infCode by decide, show double.qmin = -1074 by decide] at h2
      rw [h2]
      rw [show (1024 : ℤ) = 52 + (-1074 + ((2046 : ℕ) : ℤ)) by norm_num, zpow_add₀ (by norm_num) 52]
      congr 1
    rw [← h1]
    exact double.magc_strictMono hn

theorem gap_false {P Q M N D : ℕ} {m q U : ℚ} (hU : 0 < U) (hm : m * U = N * P) (hq : q * U = D * Q) (g : gap P Q M = true) (hN0 : 0 < N) (hN : N ≤ M)
    (h : |q - m| * (2 * 10 ^ 100) ≤ m) : False := by
  refine gap_spec g (D := D) hN0 hN ?_
  have hT : (0 : ℚ) < 10 ^ 100 := by positivity
  have h1 : |q - m| * (2 * 10 ^ 100) * U ≤ m * U := by gcongr
  have h2 : |q - m| * (2 * 10 ^ 100) * U = |q * U - m * U| * (2 * 10 ^ 100) := by
    rw [← sub_mul, abs_mul, abs_of_pos hU]
    ring
  rw [h2, hm, hq] at h1
  have h3 : ((|(D : ℤ) * Q - N * P| * (2 * 10 ^ 100) : ℤ) : ℚ) ≤ ((N * P : ℤ) : ℚ) := by
    push_cast [-Int.cast_ofNat]
    norm_num only at h1 ⊢
    exact h1
  exact_mod_cast h3

section
variable {m q : ℚ} {N D : ℕ} {k : ℤ}

theorem large_equal (hm : m = N * (2 : ℚ) ^ k) (hN0 : 0 < N) (hN : N < 2 ^ 53) {j : ℕ} (hj : j < 263) (hq : q = D * (10 : ℚ) ^ (j + 30)) (hD : (10 : ℚ) ^ 16 ≤ D)
    (hD' : (D : ℚ) < 10 ^ 17) (l1 : q ≤ 2 * m) (l2 : m ≤ 2 * q) (h : |q - m| * (2 * 10 ^ 100) ≤ m) : False := by
  obtain ⟨g1, g2⟩ := gap_large j hj
  have hlog : 2 ^ Nat.log2 (10 ^ (j + 46)) ≤ 10 ^ (j + 46) := Nat.log2_self_le (by positivity)
  have hlog2 : 54 ≤ Nat.log2 (10 ^ (j + 46)) := (Nat.le_log2 (by positivity)).2
    (le_trans (by norm_num : 2 ^ 54 ≤ 10 ^ 46) (Nat.pow_le_pow_right (by norm_num) (by omega)))
  obtain ⟨k0, hk0⟩ : ∃ k0, Nat.log2 (10 ^ (j + 46)) = k0 + 54 := ⟨_, (Nat.sub_add_cancel hlog2).symm⟩
  rw [hk0, Nat.add_sub_cancel] at g1 g2
  rw [hk0, show 10 ^ (j + 46) = 10 ^ 16 * 10 ^ (j + 30) by rw [← pow_add]; ring_nf, show k0 + 54 = (k0 + 53) + 1 by rfl, pow_succ] at hlog
  rw [show 10 ^ (j + 47) = 10 ^ 17 * 10 ^ (j + 30) by rw [← pow_add]; ring_nf] at g2
  have hlogq : (2 : ℚ) ^ (k0 + 53) * 2 ≤ 10 ^ 16 * 10 ^ (j + 30) := by exact_mod_cast hlog
  have g2q : 2 * ((10 : ℚ) ^ 17 * 10 ^ (j + 30)) ≤ 2 ^ 60 * 2 ^ k0 := by exact_mod_cast g2
  have hQ : (0 : ℚ) < 10 ^ (j + 30) := by positivity
  have hlow : (2 : ℚ) ^ (((k0 + 53 : ℕ)) : ℤ) ≤ m := by
    rw [zpow_natCast]
    have : (10 : ℚ) ^ 16 * 10 ^ (j + 30) ≤ q := by
      rw [hq]
      gcongr
    linarith
  have hk := exponent_ge hm hN hlow
  obtain ⟨i, rfl⟩ : ∃ i : ℕ, k = k0 + i := ⟨(k - k0).toNat, by push_cast at hk; omega⟩
  have hm' : m = ((N * 2 ^ i : ℕ) : ℚ) * ((2 ^ k0 : ℕ) : ℚ) := by
    rw [hm, zpow_add₀ (by norm_num)]
    push_cast
    rw [zpow_natCast, zpow_natCast]
    ring
  refine gap_false (N := N * 2 ^ i) (U := 1) one_pos (by rw [mul_one, hm']) (by rw [mul_one, hq]; push_cast; rfl) g1 (by positivity) ?_ h
  have h6 : m < 2 ^ 60 * 2 ^ k0 := by
    have : q < 10 ^ 17 * 10 ^ (j + 30) := by
      rw [hq]
      gcongr
    linarith
  rw [hm'] at h6
  push_cast at h6
  have h7 := lt_of_mul_lt_mul_right h6 (by positivity)
  have h8 : N * 2 ^ i < 2 ^ 60 := by exact_mod_cast h7
  exact h8.le

theorem small_equal (hm : m = N * (2 : ℚ) ^ k) (hN0 : 0 < N) (hN : N < 2 ^ 53) {j : ℕ} (hj : j < 311) (hq : q = D / (10 : ℚ) ^ (j + 30)) (hD : (10 : ℚ) ^ 16 ≤ D)
    (hD' : (D : ℚ) < 10 ^ 17) (l1 : q ≤ 2 * m) (l2 : m ≤ 2 * q) (h : |q - m| * (2 * 10 ^ 100) ≤ m) : False := by
  obtain ⟨g1, g2⟩ := gap_small j hj
  have hlog : 10 ^ (j + 14) < 2 ^ (Nat.log2 (10 ^ (j + 14)) + 1) := Nat.lt_log2_self
  generalize Nat.log2 (10 ^ (j + 14)) = K at *
  have hlogq : (10 : ℚ) ^ (j + 14) < 2 ^ (K + 1) := by exact_mod_cast hlog
  have g2q : 2 * (2 : ℚ) ^ (K + 55) ≤ 2 ^ 60 * 10 ^ (j + 13) := by exact_mod_cast g2
  have hQ : (10 : ℚ) ^ (j + 30) = 10 ^ 16 * 10 ^ (j + 14) := by rw [← pow_add]; ring_nf
  have hQ' : (10 : ℚ) ^ (j + 30) = 10 ^ 17 * 10 ^ (j + 13) := by rw [← pow_add]; ring_nf
  have hq1 : 1 / 10 ^ (j + 14) ≤ q := by
    rw [hq, hQ, div_le_div_iff₀ (by positivity) (by positivity), one_mul]
    gcongr
  have hq2 : q < 1 / 10 ^ (j + 13) := by
    rw [hq, hQ', div_lt_div_iff₀ (by positivity) (by positivity), one_mul]
    gcongr
  have hlow : (2 : ℚ) ^ (-((K + 2 : ℕ) : ℤ)) ≤ m := by
    rw [zpow_neg, zpow_natCast, show K + 2 = (K + 1) + 1 from rfl, pow_succ, mul_inv]
    have h1 : ((2 : ℚ) ^ (K + 1))⁻¹ ≤ 1 / 10 ^ (j + 14) := by
      rw [one_div]
      exact inv_anti₀ (by positivity) hlogq.le
    linarith
  have hk := exponent_ge hm hN hlow
  obtain ⟨i, rfl⟩ : ∃ i : ℕ, k = i - ((K + 55 : ℕ) : ℤ) := ⟨(k + (K + 55 : ℕ)).toNat, by push_cast at hk ⊢; omega⟩
  have hm' : m * 2 ^ (K + 55) = ((N * 2 ^ i : ℕ) : ℚ) := by
    rw [hm, zpow_sub₀ (by norm_num), zpow_natCast, zpow_natCast]
    push_cast
    field_simp
  refine gap_false (N := N * 2 ^ i) (U := 2 ^ (K + 55) * 10 ^ (j + 30)) (by positivity) (by rw [← mul_assoc, hm']; push_cast; rfl)
    (by rw [hq]; push_cast; field_simp) g1 (by positivity) ?_ h
  have h6 : m * 2 ^ (K + 55) < 2 ^ 60 := by
    have h7 : (0 : ℚ) < 10 ^ (j + 13) := by positivity
    have h8 : m < 2 * (1 / 10 ^ (j + 13)) := by linarith
    have h9 : m * 2 ^ (K + 55) < 2 * (1 / 10 ^ (j + 13)) * 2 ^ (K + 55) := by gcongr
    refine lt_of_lt_of_le h9 ?_
    have : 2 * (1 / 10 ^ (j + 13)) * (2 : ℚ) ^ (K + 55) = (2 * 2 ^ (K + 55)) / 10 ^ (j + 13) := by ring
    rw [this, div_le_iff₀ h7]
    exact g2q
  rw [hm'] at h6
  have h8 : N * 2 ^ i < 2 ^ 60 := by exact_mod_cast h6
  exact h8.le

/-- The multiples of a power of two that are near a decimal of 17 digits. -/
theorem near_equal64 {e : ℤ} (hm : m = N * (2 : ℚ) ^ k) (hN : N < 2 ^ 53) (hq : q = D * (10 : ℚ) ^ e) (hD : 10 ^ 16 ≤ D)
    (hD' : D < 10 ^ 17) (h : |q - m| * (2 * 10 ^ 100) ≤ m) (he : -341 < e) (he' : e < 293) : m = q := by
  have hm0 : 0 ≤ m := by rw [hm]; positivity
  have hmq : |q - m| * 4 ≤ m := by
    have h3 := abs_nonneg (q - m)
    norm_num at h
    linarith
  have h5 := abs_le.1 (le_refl |q - m|)
  have l1 : q ≤ 2 * m := by linarith
  have l2 : m ≤ 2 * q := by linarith
  have hDq : (10 : ℚ) ^ 16 ≤ D := by exact_mod_cast hD
  have hDq' : (D : ℚ) < 10 ^ 17 := by exact_mod_cast hD'
  have hq0 : 0 < q := by
    rw [hq]
    have : 0 < D := lt_of_lt_of_le (by norm_num) hD
    positivity
  have hN0 : 0 < N := by
    rcases Nat.eq_zero_or_pos N with rfl | h
    · exfalso
      have : m = 0 := by rw [hm]; simp
      linarith
    · exact h
  rcases le_or_gt 30 e with hL | hL
  · obtain ⟨j, rfl, hj⟩ : ∃ j : ℕ, e = ((j + 30 : ℕ) : ℤ) ∧ j < 263 := ⟨(e - 30).toNat, by push_cast; omega, by omega⟩
    rw [zpow_natCast] at hq
    exact (large_equal hm hN0 hN hj hq hDq hDq' l1 l2 h).elim
  · rcases le_or_gt e (-30) with hS | hS
    · obtain ⟨j, rfl, hj⟩ : ∃ j : ℕ, e = -((j + 30 : ℕ) : ℤ) ∧ j < 311 := ⟨(-e - 30).toNat, by push_cast; omega, by omega⟩
      rw [zpow_neg, zpow_natCast, ← div_eq_mul_inv] at hq
      exact (small_equal hm hN0 hN hj hq hDq hDq' l1 l2 h).elim
    · by_cases h1 : 1 ≤ m
      · have hk := exponent_ge (a := 0) hm hN (by simpa using h1)
        refine near_equal (K := 53) (E := 17) (B := 2 * 10 ^ 47) hm hq (by push_cast at *; omega) ?_ ?_ (by norm_num) h
        · by_contra hc
          push Not at hc
          push_cast at hc
          have h6 : q < 10 ^ 17 * (10 : ℚ) ^ (-18 : ℤ) := by
            rw [hq]
            have : (10 : ℚ) ^ e ≤ (10 : ℚ) ^ (-18 : ℤ) := zpow_le_zpow_right₀ (by norm_num) (by omega)
            calc (D : ℚ) * 10 ^ e ≤ D * (10 : ℚ) ^ (-18 : ℤ) := by gcongr
              _ < _ := by gcongr
          norm_num at h6
          linarith
        · have h6 : q < 10 ^ 17 * (10 : ℚ) ^ (30 : ℤ) := by
            rw [hq]
            have : (10 : ℚ) ^ e ≤ (10 : ℚ) ^ (30 : ℤ) := zpow_le_zpow_right₀ (by norm_num) (by omega)
            calc (D : ℚ) * 10 ^ e ≤ D * (10 : ℚ) ^ (30 : ℤ) := by gcongr
              _ < _ := by gcongr
          norm_num at h6 ⊢
          linarith
      · -- below 1: the exponents of two go down to -202
        have h6 : (10 : ℚ) ^ 16 * (10 : ℚ) ^ (-30 : ℤ) ≤ q := by
          rw [hq]
          have : (10 : ℚ) ^ (-30 : ℤ) ≤ (10 : ℚ) ^ e := zpow_le_zpow_right₀ (by norm_num) (by omega)
          gcongr
        have hk := exponent_ge (a := -50) hm hN (by
          norm_num at h6 ⊢
          linarith)
        exact near_equal (K := 103) (E := 30) hm hq (by push_cast at *; omega) (by push_cast; omega) (le_of_not_ge h1) (by norm_num) h
end

/-- A float64 and a decimal of at most 17 digits that agree to 101 digits are equal. -/
theorem short_equal64 {s : Bool} {m : ℚ} {c D : ℕ} {e : ℤ} (hc : double.decode c = .num s m) (hD : D < 10 ^ 17) {q : ℚ} (hq : q = D * (10 : ℚ) ^ e)
    (h : Rounded101 m q) : m = q := by
  unfold Rounded101 at h
  split at h
  · rename_i h0
    rw [h0, h]
  · rename_i h0
    obtain ⟨l1, l2⟩ := double_pos hc h0
    have hr := rounded_near h
    rw [show 101 - 1 = 100 from rfl] at hr
    obtain ⟨N, k, hm, hN, -⟩ := decode_dyadic_min hc
    rw [show double.t + 1 = 53 from rfl] at hN
    have hm0 : 0 ≤ m := le_trans (zpow_nonneg (by norm_num) _) l1
    have hmq : |q - m| * 4 ≤ m := by
      have h3 := abs_nonneg (q - m)
      norm_num at hr
      linarith only [hr, h3]
    have h5 := abs_le.1 (le_refl |q - m|)
    have g1 : q ≤ 2 * m := by linarith only [h5.1, h5.2, hmq, hm0]
    have g2 : m ≤ 2 * q := by linarith only [h5.1, h5.2, hmq, hm0]
    have hD0 : 0 < D := by
      rcases Nat.eq_zero_or_pos D with rfl | hD0
      · exfalso
        rw [hq] at g2
        apply h0
        rw [Nat.cast_zero, zero_mul, mul_zero] at g2
        exact le_antisymm g2 hm0
      · exact hD0
    -- normalise the decimal to 17 digits
    obtain ⟨D', e', hD1, hD2, hq'⟩ : ∃ (D' : ℕ) (e' : ℤ), 10 ^ 16 ≤ D' ∧ D' < 10 ^ 17 ∧ q = D' * (10 : ℚ) ^ e' := by
      have hlen : Nat.log 10 D < 17 := Nat.log_lt_of_lt_pow hD0.ne' hD
      have a1 := Nat.pow_log_le_self 10 hD0.ne'
      have a2 := Nat.lt_pow_succ_log_self (b := 10) (by norm_num) D
      generalize Nat.log 10 D = l at *
      refine ⟨D * 10 ^ (16 - l), e - (16 - l : ℕ), ?_, ?_, ?_⟩
      · calc 10 ^ 16 = 10 ^ l * 10 ^ (16 - l) := by rw [← pow_add]; congr 1; omega
          _ ≤ _ := by gcongr
      · calc D * 10 ^ (16 - l) < 10 ^ (l + 1) * 10 ^ (16 - l) := by gcongr
          _ = _ := by rw [← pow_add]; congr 1; omega
      · rw [hq, zpow_sub₀ (by norm_num), zpow_natCast]
        push_cast
        field_simp
    have hDq : (10 : ℚ) ^ 16 ≤ D' := by exact_mod_cast hD1
    have hDq' : (D' : ℚ) < 10 ^ 17 := by exact_mod_cast hD2
    refine near_equal64 hm hN hq' hD1 hD2 hr ?_ ?_
    · by_contra hc'
      push Not at hc'
      have h6 : q < 10 ^ 17 * (10 : ℚ) ^ (-341 : ℤ) := by
        rw [hq']
        have : (10 : ℚ) ^ e' ≤ (10 : ℚ) ^ (-341 : ℤ) := zpow_le_zpow_right₀ (by norm_num) (by omega)
        calc (D' : ℚ) * 10 ^ e' ≤ D' * (10 : ℚ) ^ (-341 : ℤ) := by gcongr
          _ < _ := by gcongr
      have h7 : 2 * (10 ^ 17 * (10 : ℚ) ^ (-341 : ℤ)) ≤ (2 : ℚ) ^ (-1074 : ℤ) := by
        have h8 : 2 * 10 ^ 17 * 2 ^ 1074 ≤ 10 ^ 341 := by decide +kernel
        have h9 : ((2 * 10 ^ 17 * 2 ^ 1074 : ℕ) : ℚ) ≤ ((10 ^ 341 : ℕ) : ℚ) := Nat.cast_le.2 h8
        rw [Nat.cast_mul, Nat.cast_pow, Nat.cast_pow] at h9
        rw [show (-341 : ℤ) = -((341 : ℕ) : ℤ) by rfl, show (-1074 : ℤ) = -((1074 : ℕ) : ℤ) by rfl, zpow_neg, zpow_neg, zpow_natCast, zpow_natCast]
        have b1 : (0 : ℚ) < 10 ^ 341 := pow_pos (by norm_num) _
        have b2 : (0 : ℚ) < 2 ^ 1074 := pow_pos (by norm_num) _
        simp only [Nat.cast_ofNat] at h9
        generalize (10 : ℚ) ^ 341 = A at *
        generalize (2 : ℚ) ^ 1074 = B at *
        rw [← mul_assoc, ← div_eq_mul_inv, div_le_iff₀ b1, ← div_eq_inv_mul, le_div_iff₀ b2]
        norm_num at h9 ⊢
        linarith
      generalize (10 : ℚ) ^ (-341 : ℤ) = A at *
      generalize (2 : ℚ) ^ (-1074 : ℤ) = B at *
      linarith only [h6, h7, g2, l1]
    · by_contra hc'
      push Not at hc'
      have h6 : 10 ^ 16 * (10 : ℚ) ^ (293 : ℤ) ≤ q := by
        rw [hq']
        have : (10 : ℚ) ^ (293 : ℤ) ≤ (10 : ℚ) ^ e' := zpow_le_zpow_right₀ (by norm_num) (by omega)
        gcongr
      have h7 : 2 * (2 : ℚ) ^ (1024 : ℤ) ≤ 10 ^ 16 * (10 : ℚ) ^ (293 : ℤ) := by
        have h8 : 2 * 2 ^ 1024 ≤ 10 ^ 16 * 10 ^ 293 := by decide +kernel
        have h9 : ((2 * 2 ^ 1024 : ℕ) : ℚ) ≤ ((10 ^ 16 * 10 ^ 293 : ℕ) : ℚ) := Nat.cast_le.2 h8
        rw [Nat.cast_mul, Nat.cast_mul, Nat.cast_pow, Nat.cast_pow, Nat.cast_pow] at h9
        exact h9
      generalize (10 : ℚ) ^ (293 : ℤ) = A at *
      generalize (2 : ℚ) ^ (1024 : ℤ) = B at *
      linarith only [h6, h7, g1, l2]

end GoFloat
