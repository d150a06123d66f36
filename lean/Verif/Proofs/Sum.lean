import Verif.Proofs.DoubleRound
import Verif.Proofs.Widen
import Verif.Props.Library
import Verif.Props.Value
/-
A sum of two numbers of a format, rounded to the bits of the format, is the number of the format nearest to the sum.
-/
namespace GoFloat
open Spec Strconv

variable {F : Format} {m r : ℚ}

/-- Every code, the one of the infinity included, stands for a number with the bits of the format. -/
theorem magc_bits (F : Format) (n : ℕ) : ∃ K e : ℤ, |K| < 2 ^ (F.t + 1) ∧ F.magc n = K * (2 : ℚ) ^ e := by
  obtain ⟨k, N, rfl, h2, h3⟩ := F.code_split n
  refine ⟨N, F.qmin + k, ?_, by rw [F.magc_eq h2.le h3]; push_cast; rfl⟩
  rw [abs_of_nonneg (by positivity)]
  exact_mod_cast h2

theorem two_lt {a b : ℤ} (h : (2 : ℚ) ^ a < (2 : ℚ) ^ b) : a < b := (zpow_lt_zpow_iff_right₀ (by norm_num)).1 h

theorem two_pow_bits (p : ℕ) (e : ℤ) : |(1 : ℤ)| < 2 ^ (p + 1) ∧ ((1 : ℤ) : ℚ) * (2 : ℚ) ^ e = (2 : ℚ) ^ e := by
  refine ⟨?_, by simp⟩
  rw [abs_one]
  exact one_lt_pow₀ (by norm_num) (by omega)

/-- A multiple of a power of two, rounded to some number of bits, is one as well. -/
theorem rounded_multiple_of {t : ℕ} {q₀ : ℤ} {z : ℕ} (hz : z ≠ 0) (hm : m = z * (2 : ℚ) ^ q₀) (h : RoundsToBits (t + 1) m r) :
    ∃ (N : ℕ) (q : ℤ), N < 2 ^ (t + 1) ∧ q₀ ≤ q ∧ r = N * (2 : ℚ) ^ q ∧ N ≠ 0 := by
  have hu : (0 : ℚ) < (2 : ℚ) ^ q₀ := by positivity
  by_cases hlt : z < 2 ^ (t + 1)
  · refine ⟨z, q₀, hlt, le_rfl, ?_, hz⟩
    rw [← hm]
    exact Float128ppc.eq_of_fits h (K := z) (e := q₀) (by rw [abs_of_nonneg (by positivity)]; exact_mod_cast hlt) (by rw [hm]; push_cast; rfl)
  · have hge : (2 : ℚ) ^ (q₀ + (t + 1 : ℕ)) ≤ m := by
      rw [hm, zpow_add₀ (by norm_num), zpow_natCast, mul_comm]
      exact mul_le_mul_of_nonneg_right (by exact_mod_cast not_lt.1 hlt) hu.le
    have hr : (2 : ℚ) ^ (q₀ + (t + 1 : ℕ)) ≤ r := by
      have := Float128ppc.ge_of_ge h (K := 1) (e := q₀ + (t + 1 : ℕ)) (two_pow_bits _ 0).1 (by rw [(two_pow_bits 0 _).2]; exact hge)
      rwa [(two_pow_bits 0 _).2] at this
    obtain ⟨K, E, hK, rfl⟩ := h.1
    have hE : (0 : ℚ) < (2 : ℚ) ^ E := by positivity
    have hK0 : 0 < K := by
      by_contra hc
      have : (K : ℚ) ≤ 0 := by exact_mod_cast not_lt.1 hc
      have h1 := mul_nonpos_of_nonpos_of_nonneg this hE.le
      have h2 : (0 : ℚ) < (2 : ℚ) ^ (q₀ + (t + 1 : ℕ)) := by positivity
      linarith
    rw [abs_of_pos hK0] at hK
    refine ⟨K.toNat, E, by zify; rw [Int.toNat_of_nonneg hK0.le]; exact hK, ?_, ?_, by omega⟩
    · have h1 : (2 : ℚ) ^ (q₀ + (t + 1 : ℕ)) < (2 : ℚ) ^ (E + (t + 1 : ℕ)) := by
        refine lt_of_le_of_lt hr ?_
        rw [zpow_add₀ (by norm_num) E, zpow_natCast, mul_comm]
        exact mul_lt_mul_of_pos_left (by exact_mod_cast hK) hE
      have := two_lt h1
      omega
    · rw [show ((K.toNat : ℕ) : ℚ) = ((K.toNat : ℤ) : ℚ) by norm_cast, Int.toNat_of_nonneg hK0.le]

/-- A multiple of the least number of the format, rounded to the bits of the format, is one as well. -/
theorem rounded_multiple {z : ℕ} (hz : z ≠ 0) (hm : m = z * (2 : ℚ) ^ F.qmin) (h : RoundsToBits (F.t + 1) m r) :
    ∃ (N : ℕ) (q : ℤ), N < 2 ^ (F.t + 1) ∧ F.qmin ≤ q ∧ r = N * (2 : ℚ) ^ q ∧ N ≠ 0 := rounded_multiple_of hz hm h

/-- The parity of the code of an even multiple of the unit in the last place. -/
theorem code_even (ht : 1 ≤ F.t) {n : ℕ} {j q : ℤ} (hq : F.qmin ≤ q) (hr : F.magc n = 2 * j * (2 : ℚ) ^ q) (hle : F.magc n ≤ (2 : ℚ) ^ (q + (F.t + 1 : ℕ))) :
    n % 2 = 0 := by
  obtain ⟨k, N, rfl, h2, h3⟩ := F.code_split n
  rw [F.magc_eq h2.le h3] at hr hle
  have heven : k * 2 ^ F.t % 2 = 0 := by
    obtain ⟨s, hs⟩ : ∃ s, F.t = s + 1 := ⟨F.t - 1, by omega⟩
    rw [hs, pow_succ, ← mul_assoc]
    exact Nat.mul_mod_left _ _
  suffices N % 2 = 0 by omega
  by_cases hkq : F.qmin + k ≤ q
  · obtain ⟨d, hd⟩ : ∃ d : ℕ, q = F.qmin + k + d := ⟨(q - (F.qmin + k)).toNat, by omega⟩
    rw [hd, zpow_add₀ (by norm_num) (F.qmin + (k : ℤ)), zpow_natCast, mul_comm ((2 : ℚ) ^ (F.qmin + (k : ℤ))), ← mul_assoc] at hr
    have : (N : ℚ) = 2 * j * 2 ^ d := mul_right_cancel₀ (by positivity) hr
    have : (N : ℤ) = 2 * (j * 2 ^ d) := by rw [← mul_assoc]; exact_mod_cast this
    omega
  · have hN : 2 ^ F.t ≤ N := h3.resolve_left (by rintro rfl; omega)
    have : N ≤ 2 ^ F.t := by
      have h1 : (N : ℚ) * (2 : ℚ) ^ (F.qmin + (k : ℤ)) ≤ 2 ^ F.t * (2 : ℚ) ^ (F.qmin + (k : ℤ)) := by
        refine hle.trans ?_
        rw [← zpow_natCast (2 : ℚ) F.t, ← zpow_add₀ (by norm_num)]
        exact zpow_le_zpow_right₀ (by norm_num) (by push_cast; omega)
      exact_mod_cast le_of_mul_le_mul_right h1 (by positivity)
    have hN' : N = 2 ^ F.t := le_antisymm this hN
    obtain ⟨s, hs⟩ : ∃ s, F.t = s + 1 := ⟨F.t - 1, by omega⟩
    rw [hN', hs, pow_succ]
    exact Nat.mul_mod_left _ _

/-- A number is rounded to the bits of the format. If the result is a multiple of the least number and in range, and if the last of the bits does not
count less than the least number or the rounding is exact, it is the number of the format nearest to the number. -/
theorem unit_rounds (ht : 1 ≤ F.t) (hw : 2 ≤ F.w) (s : Bool) (hm0 : 0 < m) (h : RoundsToBits (F.t + 1) m r)
    (hN : ∃ (N : ℕ) (q : ℤ), N < 2 ^ (F.t + 1) ∧ F.qmin ≤ q ∧ r = N * (2 : ℚ) ^ q)
    (hunit : m ≠ r → ∃ u : ℤ, F.qmin ≤ u ∧ (2 : ℚ) ^ (u + F.t) ≤ m ∧ m < (2 : ℚ) ^ (u + (F.t + 1 : ℕ)))
    (hr : r < (2 : ℚ) ^ (F.bias + 1)) : ∃ n, n < F.infCode ∧ F.magc n = r ∧ F.RoundsTo s m (F.signPart s + n) := by
  obtain ⟨N, q, h1, h2, h3⟩ := hN
  obtain ⟨n, hn, hnr⟩ := exists_code F hw h1 h2 (h3 ▸ hr)
  rw [← h3] at hnr
  refine ⟨n, hn, hnr, (roundsTo_iff F ht hw s hn hm0.le).2 ?_⟩
  -- in case of a tie the code is even
  have tie : ∀ n', n' ≠ n → |m - r| = |m - F.magc n'| → n % 2 = 0 := by
    intro n' hne htie
    obtain ⟨K, e, hK, hKe⟩ := magc_bits F n'
    have hne' : (K : ℚ) * (2 : ℚ) ^ e ≠ r := by
      rw [← hKe, ← hnr]; exact fun h => hne (F.magc_strictMono.injective h)
    rw [hKe] at htie
    -- the unit in the last place
    have hmr : m ≠ r := by
      rintro rfl
      rw [sub_self, abs_zero] at htie
      exact hne' (by have := abs_eq_zero.1 htie.symm; linarith)
    obtain ⟨u, hu, b1, b2⟩ := hunit hmr
    obtain ⟨j, hj⟩ := h.2.2 K e hK hne' htie u
      (by rw [abs_of_pos hm0, Nat.add_sub_cancel, ← zpow_natCast, ← zpow_add₀ (by norm_num)]; refine le_trans (le_of_eq ?_) b1; congr 1; ring)
      (by rw [abs_of_pos hm0, ← zpow_natCast, ← zpow_add₀ (by norm_num)]; refine lt_of_lt_of_le b2 (le_of_eq ?_); congr 1; push_cast; ring)
    refine code_even ht (j := j) (q := u) hu (by rw [hnr, hj]) ?_
    rw [hnr]
    have := Float128ppc.le_of_le h (K := 1) (e := u + (F.t + 1 : ℕ)) (two_pow_bits _ 0).1 (by rw [(two_pow_bits 0 _).2]; exact b2.le)
    rwa [(two_pow_bits 0 _).2] at this
  have hmono := F.magc_strictMono
  refine ⟨fun hn0 => ?_, ?_⟩
  · have hlt : F.magc (n - 1) < F.magc n := hmono (by omega)
    have hle : F.magc (n - 1) + F.magc n ≤ 2 * m := by
      obtain ⟨K, e, hK, hKe⟩ := magc_bits F (n - 1)
      by_contra hc
      have := h.2.1 K e hK
      rw [← hKe] at this
      rw [hnr] at hc hlt
      rw [abs_of_nonpos (by linarith)] at this
      rcases abs_cases (m - F.magc (n - 1)) with ⟨h2, -⟩ | ⟨h2, -⟩ <;> rw [h2] at this <;> linarith
    refine ⟨hle, fun hodd => lt_of_le_of_ne hle fun he => ?_⟩
    have := tie (n - 1) (by omega) (by
      rw [hnr] at he hlt
      rw [abs_of_nonpos (by linarith), abs_of_nonneg (by linarith)]
      linarith)
    omega
  · have hlt : F.magc n < F.magc (n + 1) := hmono (by omega)
    have hle : 2 * m ≤ F.magc n + F.magc (n + 1) := by
      obtain ⟨K, e, hK, hKe⟩ := magc_bits F (n + 1)
      by_contra hc
      have := h.2.1 K e hK
      rw [← hKe] at this
      rw [hnr] at hc hlt
      rw [abs_of_nonneg (by linarith)] at this
      rcases abs_cases (m - F.magc (n + 1)) with ⟨h2, -⟩ | ⟨h2, -⟩ <;> rw [h2] at this <;> linarith
    refine ⟨hle, fun hodd => lt_of_le_of_ne hle fun he => ?_⟩
    have := tie (n + 1) (by omega) (by
      rw [hnr] at he hlt
      rw [abs_of_nonneg (by linarith), abs_of_nonpos (by linarith)]
      linarith)
    omega

/-- A multiple of the least number of the format is rounded to the bits of the format. If the result is in range, it is the number of the format
nearest to the multiple. -/
theorem multiple_rounds (ht : 1 ≤ F.t) (hw : 2 ≤ F.w) (s : Bool) {z : ℕ} (hz : z ≠ 0) (hm : m = z * (2 : ℚ) ^ F.qmin) (h : RoundsToBits (F.t + 1) m r)
    (hr : r < (2 : ℚ) ^ (F.bias + 1)) : ∃ n, n < F.infCode ∧ F.magc n = r ∧ F.RoundsTo s m (F.signPart s + n) := by
  obtain ⟨N, q, h1, h2, h3, h4⟩ := rounded_multiple hz hm h
  refine unit_rounds ht hw s (by rw [hm]; positivity) h ⟨N, q, h1, h2, h3⟩ (fun hmr => ?_) hr
  obtain ⟨L, hL1, hL2⟩ : ∃ L : ℕ, 2 ^ L ≤ z ∧ z < 2 ^ (L + 1) := ⟨Nat.log 2 z, Nat.pow_log_le_self 2 hz, Nat.lt_pow_succ_log_self (by norm_num) z⟩
  have hLt : F.t < L := by
    by_contra hc
    have hzlt : z < 2 ^ (F.t + 1) := lt_of_lt_of_le hL2 (Nat.pow_le_pow_right (by norm_num) (by omega))
    exact hmr (Float128ppc.eq_of_fits h (K := z) (e := F.qmin) (by rw [abs_of_nonneg (by positivity)]; exact_mod_cast hzlt) (by rw [hm]; push_cast; rfl)).symm
  have hu : (0 : ℚ) < (2 : ℚ) ^ F.qmin := by positivity
  refine ⟨F.qmin + L - F.t, by omega, ?_, ?_⟩
  · rw [sub_add_cancel, hm, zpow_add₀ (by norm_num), zpow_natCast, mul_comm]
    exact mul_le_mul_of_nonneg_right (by exact_mod_cast hL1) hu.le
  · rw [show F.qmin + L - F.t + ((F.t + 1 : ℕ) : ℤ) = F.qmin + (L + 1 : ℕ) by push_cast; ring, hm, zpow_add₀ (by norm_num), zpow_natCast, mul_comm]
    exact mul_lt_mul_of_pos_left (by exact_mod_cast hL2) hu

/-- The same for a number in the normal range. -/
theorem normal_rounds (ht : 1 ≤ F.t) (hw : 2 ≤ F.w) (s : Bool) (hm : (2 : ℚ) ^ (F.qmin + F.t) ≤ m) (h : RoundsToBits (F.t + 1) m r)
    (hr : r < (2 : ℚ) ^ (F.bias + 1)) : ∃ n, n < F.infCode ∧ F.magc n = r ∧ F.RoundsTo s m (F.signPart s + n) := by
  have hp : ∀ e : ℤ, (0 : ℚ) < (2 : ℚ) ^ e := fun e => by positivity
  have hm0 : 0 < m := (hp _).trans_le hm
  refine unit_rounds ht hw s hm0 h ?_ (fun _ => ?_) hr
  · have hge := Float128ppc.ge_of_ge h (K := 1) (e := F.qmin + F.t) (two_pow_bits _ 0).1 (by rw [(two_pow_bits 0 _).2]; exact hm)
    rw [(two_pow_bits 0 _).2] at hge
    obtain ⟨⟨k, e, hk, rfl⟩, -⟩ := h
    have hk0 : (0 : ℚ) < k := by
      have := (hp _).trans_le hge
      exact (pos_iff_pos_of_mul_pos this).2 (hp e)
    have hk0' : 0 < k := by exact_mod_cast hk0
    obtain ⟨N, rfl⟩ := Int.eq_ofNat_of_zero_le hk0'.le
    rw [abs_of_pos hk0'] at hk
    refine ⟨N, e, by exact_mod_cast hk, ?_, by push_cast; rfl⟩
    by_contra hc
    have h1 : (2 : ℚ) ^ (F.t + 1) * (2 : ℚ) ^ e ≤ (2 : ℚ) ^ (F.qmin + F.t) := by
      rw [← zpow_natCast, ← zpow_add₀ (by norm_num)]
      exact zpow_le_zpow_right₀ (by norm_num) (by push_cast; omega)
    have h2 : ((N : ℤ) : ℚ) * (2 : ℚ) ^ e < 2 ^ (F.t + 1) * (2 : ℚ) ^ e := mul_lt_mul_of_pos_right (by exact_mod_cast hk) (hp e)
    linarith
  · obtain ⟨i, hi1, hi2⟩ := exists_mem_Ico_zpow hm0 (by norm_num : (1 : ℚ) < 2)
    have := two_lt (hm.trans_lt hi2)
    exact ⟨i - F.t, by omega, by rwa [sub_add_cancel], by rwa [show i - F.t + ((F.t + 1 : ℕ) : ℤ) = i + 1 by push_cast; ring]⟩

/-- No number of `t + 1` bits is strictly between a power of two and the next number of as many bits. -/
theorem power_gap {t : ℕ} {k e q : ℤ} (hk : |k| < 2 ^ (t + 1)) (h1 : (2 : ℚ) ^ t * 2 ^ q < k * (2 : ℚ) ^ e) (h2 : (k : ℚ) * (2 : ℚ) ^ e < (2 ^ t + 1) * (2 : ℚ) ^ q) : False := by
  have hu : (0 : ℚ) < (2 : ℚ) ^ q := by positivity
  have he : (0 : ℚ) < (2 : ℚ) ^ e := by positivity
  have hk' : (k : ℚ) < 2 ^ (t + 1) := by exact_mod_cast (abs_lt.1 hk).2
  have hle : q ≤ e := by
    have : (2 : ℚ) ^ (q + t) < (2 : ℚ) ^ (e + (t + 1 : ℕ)) := by
      rw [zpow_add₀ (by norm_num), zpow_add₀ (by norm_num), zpow_natCast, zpow_natCast, mul_comm, mul_comm ((2 : ℚ) ^ e)]
      exact h1.trans (mul_lt_mul_of_pos_right hk' he)
    have := two_lt this
    push_cast at this
    omega
  obtain ⟨d, rfl⟩ : ∃ d : ℕ, e = q + d := ⟨(e - q).toNat, by omega⟩
  rw [zpow_add₀ (by norm_num), zpow_natCast, mul_comm ((2 : ℚ) ^ q), ← mul_assoc] at h1 h2
  have a1 := lt_of_mul_lt_mul_right h1 hu.le
  have a2 := lt_of_mul_lt_mul_right h2 hu.le
  have b1 : (2 : ℤ) ^ t < k * 2 ^ d := by exact_mod_cast a1
  have b2 : k * 2 ^ d < (2 : ℤ) ^ t + 1 := by exact_mod_cast a2
  omega

/-- Where rounding to `t + 1` bits leaves a power of two. -/
theorem rounds_past {t : ℕ} (ht : 1 ≤ t) (h : RoundsToBits (t + 1) m r) (q : ℤ) :
    (2 ^ t + 1) * (2 : ℚ) ^ q ≤ r ↔ (2 ^ t + 1 / 2) * (2 : ℚ) ^ q < m := by
  obtain ⟨⟨k, e, hk, hr⟩, h2, h3⟩ := h
  have hu : (0 : ℚ) < (2 : ℚ) ^ q := by positivity
  have hM : (1 : ℤ) ≤ 2 ^ t := one_le_pow₀ (by norm_num)
  have hMe : (2 : ℤ) ^ t % 2 = 0 := by
    obtain ⟨s, rfl⟩ : ∃ s, t = s + 1 := ⟨t - 1, by omega⟩
    rw [pow_succ]; exact Int.mul_emod_left _ _
  have hb1 : |(2 : ℤ) ^ t| < 2 ^ (t + 1) := by rw [abs_of_pos (by positivity), pow_succ]; omega
  have hb2 : |(2 : ℤ) ^ t + 1| < 2 ^ (t + 1) := by rw [abs_of_pos (by positivity), pow_succ]; omega
  have hP := h2 (2 ^ t) q hb1
  have hb := h2 (2 ^ t + 1) q hb2
  have hgap : ¬ ((2 : ℚ) ^ t * (2 : ℚ) ^ q < r ∧ r < (2 ^ t + 1) * (2 : ℚ) ^ q) := fun hc =>
    power_gap hk (by rw [← hr]; exact hc.1) (by rw [← hr]; exact hc.2)
  have htie := h3 (2 ^ t) q hb1
  push_cast at hP hb htie
  have hodd : ∀ j : ℤ, r = (2 ^ t + 1) * (2 : ℚ) ^ q → r = 2 * j * (2 : ℚ) ^ q → False := fun j a b => by
    have : ((2 : ℚ) ^ t + 1) = 2 * j := mul_right_cancel₀ hu.ne' (a.symm.trans b)
    have : (2 : ℤ) ^ t + 1 = 2 * j := by exact_mod_cast this
    omega
  have htie' := fun h1 h2 => htie h1 h2 q
  rw [pow_succ] at htie'
  have hM1 : (1 : ℚ) ≤ 2 ^ t := by exact_mod_cast hM
  generalize (2 : ℚ) ^ t = M at *
  generalize (2 : ℚ) ^ q = u at *
  have hMu : u ≤ M * u := by nlinarith
  constructor
  · intro hle
    by_contra hc
    push Not at hc
    have e1 : |m - r| = r - m := by rw [abs_sub_comm, abs_of_nonneg]; linarith
    rw [e1] at hP htie'
    rcases le_or_gt (M * u) m with c | c
    · have e2 : |m - M * u| = m - M * u := abs_of_nonneg (by linarith)
      rw [e2] at hP htie'
      have hm : m = (M + 1 / 2) * u := by linarith
      have hr' : r = (M + 1) * u := by linarith
      have ham : |m| = m := abs_of_nonneg (by linarith)
      obtain ⟨j, hj⟩ := htie' (by linarith) (by linarith) (by rw [ham]; linarith) (by rw [ham]; linarith)
      exact hodd j hr' hj
    · have e2 : |m - M * u| = M * u - m := by rw [abs_sub_comm, abs_of_nonneg]; linarith
      rw [e2] at hP
      linarith
  · intro hlt
    by_contra hc
    push Not at hc
    rcases le_or_gt ((M + 1) * u) m with c | c
    · rw [abs_of_nonneg (by linarith), abs_of_nonneg (by linarith)] at hb
      linarith
    · rw [abs_sub_comm m ((M + 1) * u), abs_of_nonneg (by linarith : 0 ≤ (M + 1) * u - m)] at hb
      rcases le_or_gt r (M * u) with c' | c'
      · rw [abs_of_nonneg (by linarith)] at hb
        linarith
      · exact hgap ⟨c', hc⟩

/-- Rounding to the bits of the format stays in range exactly below the overflow threshold. -/
theorem rounded_in_range (hw : 2 ≤ F.w) (h : RoundsToBits (F.t + 1) m r) (hlt : m < F.overflowAt) : r < (2 : ℚ) ^ (F.bias + 1) := by
  by_contra hc
  have h1 := magc_infCode_add F hw
  rw [magc_infCode F hw] at h1
  obtain ⟨K, e, hK, hKe⟩ := magc_bits F (F.infCode - 1)
  have h2 := h.2.1 K e hK
  rw [← hKe] at h2
  have h3 : F.magc (F.infCode - 1) < F.magc F.infCode := F.magc_strictMono (by
    have : 0 < F.infCode := lt_of_le_of_lt (Nat.zero_le _) (show 0 < F.infCode by
      unfold Format.infCode
      have : 2 ^ 2 ≤ 2 ^ F.w := Nat.pow_le_pow_right (by norm_num) hw
      exact Nat.mul_pos (by omega) (Nat.two_pow_pos _))
    omega)
  rw [magc_infCode F hw] at h3
  rw [abs_of_nonpos (by linarith)] at h2
  rcases abs_cases (m - F.magc (F.infCode - 1)) with ⟨h4, -⟩ | ⟨h4, -⟩ <;> rw [h4] at h2 <;> linarith

theorem rounded_range_iff (ht : 1 ≤ F.t) (hw : 2 ≤ F.w) {z : ℕ} (hz : z ≠ 0) (hm : m = z * (2 : ℚ) ^ F.qmin) (h : RoundsToBits (F.t + 1) m r) :
    r < (2 : ℚ) ^ (F.bias + 1) ↔ m < F.overflowAt := by
  constructor
  · intro hr
    obtain ⟨n, hn, -, h3⟩ := multiple_rounds ht hw false hz hm h hr
    by_contra hc
    unfold Format.RoundsTo at h3
    rw [if_pos (not_lt.1 hc), F.decode_code false hn] at h3
    cases h3
  · exact rounded_in_range hw h

/-- A number of the format is a multiple of its least number. -/
theorem decode_multiple (hw : 2 ≤ F.w) {c : ℕ} {s : Bool} (h : F.decode c = .num s m) : (∃ j : ℤ, signed s m = j * (2 : ℚ) ^ F.qmin) ∧ m < (2 : ℚ) ^ (F.bias + 1) := by
  obtain ⟨n, hn, rfl, -, -⟩ := F.code_of_decode h
  refine ⟨?_, by rw [← magc_infCode F hw]; exact F.magc_strictMono hn⟩
  obtain ⟨k, N, rfl, h2, h3⟩ := F.code_split n
  rw [F.magc_eq h2.le h3]
  refine ⟨if s then -((N * 2 ^ k : ℕ) : ℤ) else ((N * 2 ^ k : ℕ) : ℤ), ?_⟩
  rw [zpow_add₀ (by norm_num), zpow_natCast]
  cases s <;> simp [signed] <;> ring

end GoFloat
