import Mathlib.Data.Nat.Factorization.Basic
import Mathlib.Algebra.Order.Archimedean.Basic
import Verif.Proofs.DecimalShift
/-
`Shift` of internal/strconv/decimal.go is exact.
-/
namespace GoFloat.Strconv
open Spec

/-- The significant digits of `w * 2^P * 5^Q`. -/
def core (w : ℕ) (P Q : ℤ) : ℕ := w * 2 ^ (P - Q).toNat * 5 ^ (Q - P).toNat

theorem core_mod {w : ℕ} (h2 : ¬ 2 ∣ w) (h5 : ¬ 5 ∣ w) (P Q : ℤ) : core w P Q % 10 ≠ 0 := by
  intro h
  unfold core at h
  have hd : 10 ∣ w * 2 ^ (P - Q).toNat * 5 ^ (Q - P).toNat := Nat.dvd_of_mod_eq_zero h
  by_cases hPQ : Q ≤ P
  · rw [show (Q - P).toNat = 0 by omega, pow_zero, mul_one] at hd
    have : 5 ∣ w * 2 ^ (P - Q).toNat := (by norm_num : 5 ∣ 10).trans hd
    rcases (Nat.Prime.dvd_mul Nat.prime_five).1 this with h | h
    · exact h5 h
    · exact absurd ((Nat.prime_dvd_prime_iff_eq Nat.prime_five Nat.prime_two).1 (Nat.prime_five.dvd_of_dvd_pow h)) (by norm_num)
  · rw [show (P - Q).toNat = 0 by omega, pow_zero, mul_one] at hd
    have : 2 ∣ w * 5 ^ (Q - P).toNat := (by norm_num : 2 ∣ 10).trans hd
    rcases (Nat.Prime.dvd_mul Nat.prime_two).1 this with h | h
    · exact h2 h
    · exact absurd ((Nat.prime_dvd_prime_iff_eq Nat.prime_two Nat.prime_five).1 (Nat.prime_two.dvd_of_dvd_pow h)) (by norm_num)

theorem core_value (w : ℕ) (P Q : ℤ) : (w : ℚ) * 2 ^ P * 5 ^ Q = core w P Q * (10 : ℚ) ^ min P Q := by
  unfold core
  push_cast
  have h10 : (10 : ℚ) ^ min P Q = 2 ^ min P Q * 5 ^ min P Q := by rw [← mul_zpow]; norm_num
  rw [h10, ← zpow_natCast (2 : ℚ), ← zpow_natCast (5 : ℚ)]
  have e1 : (2 : ℚ) ^ P = 2 ^ ((P - Q).toNat : ℤ) * 2 ^ min P Q := by
    rw [← zpow_add₀ (by norm_num)]; congr 1; omega
  have e2 : (5 : ℚ) ^ Q = 5 ^ ((Q - P).toNat : ℤ) * 5 ^ min P Q := by
    rw [← zpow_add₀ (by norm_num)]; congr 1; omega
  rw [e1, e2]
  ring

theorem fits_core {n w : ℕ} (h2 : ¬ 2 ∣ w) (h5 : ¬ 5 ∣ w) (P Q : ℤ) :
    FitsDigits n ((w : ℚ) * 2 ^ P * 5 ^ Q) ↔ core w P Q < 10 ^ n := by
  rw [core_value]
  exact ⟨fun h => fits_lt (core_mod h2 h5 P Q) h, fun h => ⟨_, _, h, rfl⟩⟩

/-- Between two numbers of at most `n` digits, all the powers of two give at most `n` digits. -/
theorem fits_between {n D : ℕ} {e : ℤ} {k : ℕ} (h0 : FitsDigits n ((D : ℚ) * 10 ^ e)) (hk : FitsDigits n ((D : ℚ) * 10 ^ e * 2 ^ k))
    {j : ℕ} (hj : j ≤ k) : FitsDigits n ((D : ℚ) * 10 ^ e * 2 ^ j) := by
  by_cases hD : D = 0
  · obtain ⟨m, e', h1, h2⟩ := h0
    refine ⟨m, e', h1, ?_⟩
    rw [← h2, hD]; simp
  obtain ⟨p, u, hu, hDu⟩ := Nat.exists_eq_pow_mul_and_not_dvd hD 2 (by norm_num)
  have hu0 : u ≠ 0 := by rintro rfl; exact hu (by simp)
  obtain ⟨q, w, hw, huw⟩ := Nat.exists_eq_pow_mul_and_not_dvd hu0 5 (by norm_num)
  have hw2 : ¬ 2 ∣ w := fun h => hu (by rw [huw]; exact h.mul_left _)
  have key : ∀ i : ℕ, (D : ℚ) * 10 ^ e * 2 ^ i = (w : ℚ) * 2 ^ ((p : ℤ) + e + i) * 5 ^ ((q : ℤ) + e) := by
    intro i
    have h10 : (10 : ℚ) ^ e = 2 ^ e * 5 ^ e := by rw [← mul_zpow]; norm_num
    rw [hDu, huw, h10, zpow_add₀ (by norm_num), zpow_add₀ (by norm_num), zpow_add₀ (by norm_num)]
    push_cast
    simp only [zpow_natCast]
    ring
  have h0' : FitsDigits n ((D : ℚ) * 10 ^ e * 2 ^ 0) := by simpa using h0
  rw [key, fits_core hw2 hw] at h0' hk ⊢
  unfold core at *
  by_cases hc : (q : ℤ) + e ≤ p + e + j
  · refine lt_of_le_of_lt ?_ hk
    rw [show ((q : ℤ) + e - (p + e + j)).toNat = 0 by omega, show ((q : ℤ) + e - (p + e + k)).toNat = 0 by omega]
    exact Nat.mul_le_mul_right _ (Nat.mul_le_mul_left _ (Nat.pow_le_pow_right (by norm_num) (by omega)))
  · refine lt_of_le_of_lt ?_ h0'
    rw [show ((p : ℤ) + e + j - (q + e)).toNat = 0 by omega, show ((p : ℤ) + e + (0 : ℕ) - (q + e)).toNat = 0 by omega]
    exact Nat.mul_le_mul_left _ (Nat.pow_le_pow_right (by norm_num) (by omega))

theorem fits_self {ds : List ℕ} {dp : ℤ} (hd : ∀ d ∈ ds, d < 10) {n : ℕ} (hl : ds.length ≤ n) : FitsDigits n (decValue ds dp) :=
  ⟨dv ds, dp - ds.length, lt_of_lt_of_le (dv_lt hd) (Nat.pow_le_pow_right (by norm_num) hl), rfl⟩

theorem maxShift_ok {W : ℕ} (hW : W = 32 ∨ W = 64) : maxShift W + 4 ≤ W ∧ 1 ≤ maxShift W ∧ maxShift W ≤ 60 := by
  unfold maxShift; omega

theorem shiftLeftLoop_ok {W : ℕ} (hW : W = 32 ∨ W = 64) : ∀ (f k : ℕ) (a : Decimal), k ≤ f → 1 ≤ k → NormalDec a.d a.dp → a.d ≠ [] →
    a.d.length ≤ 800 → FitsDigits 800 (decValue a.d a.dp * 2 ^ k) →
    ∃ b, shiftLeftLoop W f a k = .ok b ∧ NormalDec b.d b.dp ∧ b.d ≠ [] ∧ b.d.length ≤ 800 ∧
      decValue b.d b.dp = decValue a.d a.dp * 2 ^ k ∧ b.neg = a.neg ∧ b.trunc = a.trunc
  | 0, k, a, h, h1, _, _, _, _ => by omega
  | f + 1, k, a, h, h1, ha, hne, hl, hfit => by
    obtain ⟨m1, m2, m3⟩ := maxShift_ok hW
    unfold shiftLeftLoop
    by_cases hk : k > maxShift W
    · rw [if_pos hk]
      have hmid : FitsDigits 800 (decValue a.d a.dp * 2 ^ maxShift W) := fits_between (fits_self ha.digit hl) hfit hk.le
      obtain ⟨b, b1, b2, b3, b4, b5, b6, b7⟩ := leftShift_ok m1 m2 m3 ha hne hmid
      have hv : decValue b.d b.dp * 2 ^ (k - maxShift W) = decValue a.d a.dp * 2 ^ k := by
        rw [b5, mul_assoc, ← pow_add]; congr 2; omega
      obtain ⟨c, c1, c2, c3, c4, c5, c6, c7⟩ := shiftLeftLoop_ok hW f (k - maxShift W) b (by omega) (by omega) b2 b3 b4 (by rw [hv]; exact hfit)
      rw [b1]
      exact ⟨c, c1, c2, c3, c4, c5.trans hv, c6.trans b6, c7.trans b7⟩
    · rw [if_neg hk]
      exact leftShift_ok (by omega) h1 (by omega) ha hne hfit

theorem shiftRightLoop_ok {W : ℕ} (hW : W = 32 ∨ W = 64) : ∀ (f k : ℕ) (a : Decimal), k ≤ f → 1 ≤ k → NormalDec a.d a.dp → a.d ≠ [] →
    a.d.length ≤ 800 → FitsDigits 800 (decValue a.d a.dp / 2 ^ k) →
    ∃ b, shiftRightLoop W f a k = .ok b ∧ NormalDec b.d b.dp ∧ b.d ≠ [] ∧ b.d.length ≤ 800 ∧
      decValue b.d b.dp = decValue a.d a.dp / 2 ^ k ∧ b.neg = a.neg ∧ b.trunc = a.trunc
  | 0, k, a, h, h1, _, _, _, _ => by omega
  | f + 1, k, a, h, h1, ha, hne, hl, hfit => by
    obtain ⟨m1, m2, m3⟩ := maxShift_ok hW
    unfold shiftRightLoop
    by_cases hk : k > maxShift W
    · rw [if_pos hk]
      have hmid : FitsDigits 800 (decValue a.d a.dp / 2 ^ maxShift W) := by
        obtain ⟨m, e, hm, hq⟩ := id hfit
        have h2 : (2 : ℚ) ^ k ≠ 0 := by positivity
        have hx : decValue a.d a.dp = (m : ℚ) * 10 ^ e * 2 ^ k := by
          rw [← hq]; field_simp
        have hx2 : decValue a.d a.dp / 2 ^ maxShift W = (m : ℚ) * 10 ^ e * 2 ^ (k - maxShift W) := by
          rw [hx, div_eq_iff (by positivity), mul_assoc ((m : ℚ) * 10 ^ e), ← pow_add]
          congr 2; omega
        rw [hx2]
        refine fits_between (k := k) ?_ ?_ (by omega)
        · rw [← hq]; exact hfit
        · rw [← hx]; exact fits_self ha.digit hl
      obtain ⟨b, b1, b2, b3, b4, b5, b6, b7⟩ := rightShift_ok m1 ha hne hl hmid
      have hv : decValue b.d b.dp / 2 ^ (k - maxShift W) = decValue a.d a.dp / 2 ^ k := by
        rw [b5, div_div, ← pow_add]; congr 2; omega
      obtain ⟨c, c1, c2, c3, c4, c5, c6, c7⟩ := shiftRightLoop_ok hW f (k - maxShift W) b (by omega) (by omega) b2 b3 b4 (by rw [hv]; exact hfit)
      rw [b1]
      exact ⟨c, c1, c2, c3, c4, c5.trans hv, c6.trans b6, c7.trans b7⟩
    · rw [if_neg hk]
      exact rightShift_ok (by omega) ha hne hl hfit

/-- `Shift` is exact if the result has at most 800 digits. -/
theorem shift_ok {W : ℕ} (hW : W = 32 ∨ W = 64) (a : Decimal) (k : ℤ) (ha : NormalDec a.d a.dp) (hl : a.d.length ≤ 800)
    (hfit : FitsDigits 800 (decValue a.d a.dp * 2 ^ k)) :
    ∃ b, a.shift W k = .ok b ∧ NormalDec b.d b.dp ∧ b.d.length ≤ 800 ∧
      decValue b.d b.dp = decValue a.d a.dp * 2 ^ k ∧ b.neg = a.neg ∧ b.trunc = a.trunc ∧ (b.d = [] ↔ a.d = []) := by
  unfold Decimal.shift
  by_cases h0 : a.d = []
  · rw [if_pos (show a.nd = 0 from List.length_eq_zero_iff.2 h0)]
    refine ⟨a, rfl, ha, hl, ?_, rfl, rfl, Iff.rfl⟩
    rw [h0]; simp [decValue]
  · rw [if_neg (show ¬ a.nd = 0 from fun hc => h0 (List.length_eq_zero_iff.1 hc))]
    by_cases hp : 0 < k
    · rw [if_pos hp]
      obtain ⟨n, rfl⟩ := Int.eq_ofNat_of_zero_le hp.le
      rw [zpow_natCast] at hfit ⊢
      rw [Int.toNat_natCast]
      obtain ⟨b, b1, b2, b3, b4, b5, b6, b7⟩ := shiftLeftLoop_ok hW (n + 1) n a (by omega) (by omega) ha h0 hl hfit
      exact ⟨b, b1, b2, b4, b5, b6, b7, by simp [b3, h0]⟩
    · rw [if_neg hp]
      by_cases hn : k < 0
      · rw [if_pos hn]
        obtain ⟨n, hn'⟩ := Int.eq_ofNat_of_zero_le (show 0 ≤ -k by omega)
        have hk : k = -(n : ℤ) := by omega
        have hz : ∀ x : ℚ, x * 2 ^ k = x / 2 ^ n := fun x => by rw [hk, zpow_neg, zpow_natCast, div_eq_mul_inv]
        rw [hz] at hfit ⊢
        rw [hn', Int.toNat_natCast]
        obtain ⟨b, b1, b2, b3, b4, b5, b6, b7⟩ := shiftRightLoop_ok hW (n + 1) n a (by omega) (by omega) ha h0 hl hfit
        exact ⟨b, b1, b2, b4, b5, b6, b7, by simp [b3, h0]⟩
      · rw [if_neg hn]
        have : k = 0 := by omega
        subst this
        exact ⟨a, rfl, ha, hl, by simp, rfl, rfl, Iff.rfl⟩

/-- The numbers of the size of doubles have at most 800 digits. -/
theorem fits_word {v : ℕ} (hv : v < 2 ^ 64) {k : ℤ} (h1 : -1100 ≤ k) (h2 : k ≤ 2500) : FitsDigits 800 ((v : ℚ) * 2 ^ k) := by
  by_cases hk : 0 ≤ k
  · obtain ⟨n, rfl⟩ := Int.eq_ofNat_of_zero_le hk
    refine ⟨v * 2 ^ n, 0, ?_, by push_cast; simp⟩
    calc v * 2 ^ n < 2 ^ 64 * 2 ^ 2500 := by
          apply Nat.mul_lt_mul_of_lt_of_le hv (Nat.pow_le_pow_right (by norm_num) (by omega)) (by positivity)
      _ < 10 ^ 800 := by decide +kernel
  · obtain ⟨n, hn⟩ := Int.eq_ofNat_of_zero_le (show 0 ≤ -k by omega)
    have hk' : k = -(n : ℤ) := by omega
    refine ⟨v * 5 ^ n, k, ?_, ?_⟩
    · calc v * 5 ^ n < 2 ^ 64 * 5 ^ 1100 := by
            apply Nat.mul_lt_mul_of_lt_of_le hv (Nat.pow_le_pow_right (by norm_num) (by omega)) (by positivity)
        _ < 10 ^ 800 := by decide +kernel
    · have h10 : (10 : ℚ) ^ k = 2 ^ k * 5 ^ k := by rw [← mul_zpow]; norm_num
      rw [h10, hk', zpow_neg, zpow_neg]
      push_cast
      simp only [zpow_natCast]
      field_simp

theorem assign_length (a : Decimal) (v : BitVec 64) : (a.assign v).d.length ≤ 20 := by
  have hs := (digitsOf_spec (b := 10) (by norm_num) v.toNat).2.2.1 20 (lt_trans v.isLt (by norm_num))
  obtain ⟨z, hz, _⟩ := dtz_spec (digitsOf 10 v.toNat)
  have := congrArg List.length hz
  rw [List.length_append] at this
  show (dropTrailingZeros (digitsOf 10 v.toNat)).length ≤ 20
  omega

end GoFloat.Strconv
