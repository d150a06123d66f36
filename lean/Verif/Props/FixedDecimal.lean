import Verif.Proofs.Sample
import Verif.Proofs.Fixed
/-
Property C88: `FixedDecimal` of internal/strconv/extfloat.go.
-/
namespace GoFloat.Strconv
open Spec

variable {f : ExtFloat} {n : ℕ}

theorem fixedDecimal_value (hm : f.mant ≠ 0) (he1 : -1086 ≤ f.exp) (he2 : f.exp < 1050) (hn1 : 1 ≤ n) (hn2 : n ≤ 15) {v : ℚ}
    (hv : v = f.mant.toNat * (2 : ℚ) ^ f.exp) :
    (f.fixedDecimal n = .ok none ∧
      ∃ (M : ℕ) (x : ℤ), 10 ^ (n - 1) ≤ M ∧ M < 10 ^ n ∧ |v - (M + 1 / 2) * (10 : ℚ) ^ x| < v / 2 ^ 60) ∨
    ∃ ds dp, f.fixedDecimal n = .ok (some ⟨ds.map (· + 48), dp, false⟩) ∧ NormalDec ds dp ∧ ds ≠ [] ∧ ds.length ≤ n ∧
      RoundedDigits n v (decValue ds dp) ∧ ∃ (M : ℕ) (x : ℤ), (10 : ℚ) ^ (n - 1) - 1 / 100 ≤ v / (10 : ℚ) ^ x ∧
        v / (10 : ℚ) ^ x ≤ 10 ^ n + 1 / 100 ∧ |v / (10 : ℚ) ^ x - M| < 1 / 2 := by
  obtain ⟨s1, s2, s3, s4, s5, s6, s7⟩ := normalize_spec f hm
  have h := fixedDecimal_norm (f := f) hm rfl (by rw [s4]; omega) (by rw [s4]; omega) s2 hn1 hn2
  have e : f.val = v := by rw [hv]; rfl
  rw [s1, e] at h
  exact h

/-- C88: `FixedDecimal` never panics for 1 to 15 digits, and the digits it returns are the number rounded to `n` significant digits,
without leading or trailing zeros. -/
theorem C88_rounded (hm : f.mant ≠ 0) (he1 : -1086 ≤ f.exp) (he2 : f.exp < 1050) (hn1 : 1 ≤ n) (hn2 : n ≤ 15) :
    ∃ r, f.fixedDecimal n = .ok r ∧ ∀ s, r = some s → ∃ ds : List ℕ, s.d = ds.map (· + 48) ∧ (∀ d ∈ ds, d < 10) ∧ ds ≠ [] ∧ ds.length ≤ n ∧
      ds.head? ≠ some 0 ∧ ds.getLast? ≠ some 0 ∧ RoundedDigits n (f.mant.toNat * (2 : ℚ) ^ f.exp) (decValue ds s.dp) := by
  rcases fixedDecimal_value hm he1 he2 hn1 hn2 rfl with ⟨h, -⟩ | ⟨ds, dp, h, h1, h2, h3, h4, -⟩
  · exact ⟨_, h, fun s hs => by cases hs⟩
  · refine ⟨_, h, fun s hs => ?_⟩
    injection hs with hs
    subst hs
    exact ⟨ds, rfl, h1.digit, h2, h3, h1.head, h1.last, h4⟩

example := C88_rounded (f := ⟨0x15555555555555, -54, false⟩) (n := 15) (by decide) (by norm_num) (by norm_num) (by norm_num) (by norm_num)

/-- C88: `FixedDecimal` gives up only if the number is within a relative 2⁻⁶⁰ of the middle between two neighbouring decimals of `n`
digits. -/
theorem C88_gives_up (hm : f.mant ≠ 0) (he1 : -1086 ≤ f.exp) (he2 : f.exp < 1050) (hn1 : 1 ≤ n) (hn2 : n ≤ 15) {v : ℚ}
    (hv : v = f.mant.toNat * (2 : ℚ) ^ f.exp) (h : f.fixedDecimal n = .ok none) :
    ∃ (M : ℕ) (x : ℤ), 10 ^ (n - 1) ≤ M ∧ M < 10 ^ n ∧ |v - (M + 1 / 2) * (10 : ℚ) ^ x| < v / 2 ^ 60 := by
  rcases fixedDecimal_value hm he1 he2 hn1 hn2 hv with ⟨-, h⟩ | ⟨ds, dp, h', -⟩
  · exact h
  · rw [h] at h'
    cases h'

-- 2.5 to one digit
example := C88_gives_up (f := ⟨5, -1, false⟩) (n := 1) (by decide) (by norm_num) (by norm_num) (by norm_num) (by norm_num) rfl (by decide +kernel)

/-- C88: on such a middle `FixedDecimal` always gives up. -/
theorem C88_middle (hm : f.mant ≠ 0) (he1 : -1086 ≤ f.exp) (he2 : f.exp < 1050) (hn1 : 1 ≤ n) (hn2 : n ≤ 15) {M : ℕ} {x : ℤ}
    (hM1 : 10 ^ (n - 1) ≤ M) (hM2 : M < 10 ^ n) (hv : (f.mant.toNat : ℚ) * (2 : ℚ) ^ f.exp = (M + 1 / 2) * (10 : ℚ) ^ x) :
    f.fixedDecimal n = .ok none := by
  rcases fixedDecimal_value hm he1 he2 hn1 hn2 hv.symm with ⟨h, -⟩ | ⟨ds, dp, -, -, -, -, -, K, y, a1, a2, a3⟩
  · exact h
  exfalso
  have hM1q : (10 : ℚ) ^ (n - 1) ≤ M := by exact_mod_cast hM1
  have hM2q : (M : ℚ) + 1 ≤ 10 ^ n := by exact_mod_cast hM2
  have hpow : (10 : ℚ) ^ n = 10 * 10 ^ (n - 1) := by
    conv_lhs => rw [show n = n - 1 + 1 by omega, pow_succ]
    ring
  have hq : ((M : ℚ) + 1 / 2) * (10 : ℚ) ^ x / (10 : ℚ) ^ y = (M + 1 / 2) * (10 : ℚ) ^ (x - y) := by
    rw [zpow_sub₀ (by norm_num), mul_div_assoc]
  rw [hq] at a1 a2 a3
  have hMp : (0 : ℚ) < M + 1 / 2 := by positivity
  rcases lt_trichotomy x y with h | h | h
  · have h1 : (10 : ℚ) ^ (x - y) ≤ (10 : ℚ) ^ (-1 : ℤ) := zpow_le_zpow_right₀ (by norm_num) (by omega)
    have h2 := mul_le_mul_of_nonneg_left h1 hMp.le
    norm_num at h2
    linarith
  · rw [h, sub_self, zpow_zero, mul_one, abs_lt] at a3
    have h1 : (M : ℚ) < K := by linarith
    have h2 : (K : ℚ) < M + 1 := by linarith
    have h1 : M < K := by exact_mod_cast h1
    have h2 : K < M + 1 := by exact_mod_cast h2
    omega
  · have h1 : (10 : ℚ) ^ (1 : ℤ) ≤ (10 : ℚ) ^ (x - y) := zpow_le_zpow_right₀ (by norm_num) (by omega)
    have h2 := mul_le_mul_of_nonneg_left h1 hMp.le
    norm_num at h2
    linarith

-- both cases occur: 1/3 in double precision to 15 digits, and 2.5 to one digit, the middle between 2 and 3
example : ExtFloat.fixedDecimal ⟨0x15555555555555, -54, false⟩ 15 = .ok (some ⟨List.replicate 15 51, 0, false⟩) := by decide +kernel
example : ExtFloat.fixedDecimal ⟨5, -1, false⟩ 1 = .ok none ∧ ((5 : BitVec 64).toNat : ℚ) * (2 : ℚ) ^ (-1 : ℤ) = ((2 : ℕ) + 1 / 2) * (10 : ℚ) ^ (0 : ℤ) :=
  ⟨by decide +kernel, by rw [show (5 : BitVec 64).toNat = 5 from rfl]; norm_num⟩
-- near a middle but not on it: 2.5 + 2⁻⁶²
example : ExtFloat.fixedDecimal ⟨5 * 2 ^ 61 + 1, -62, false⟩ 1 = .ok none := by decide +kernel

end GoFloat.Strconv
