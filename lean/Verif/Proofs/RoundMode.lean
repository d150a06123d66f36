import Verif.Proofs.RoundAny
import Verif.Spec.Bits
/-
What the model of `math/big.Float` rounds to, in every rounding mode.
-/
namespace GoFloat
open Spec

/-- `N` is `q + r` rounded to an integer in the mode, for a number of sign `neg`. -/
def Step (mode : RoundingMode) (neg : Bool) (q : ℕ) (r : ℚ) (N : ℕ) : Prop :=
  (N = q ∨ N = q + 1) ∧ (r = 0 → N = q) ∧
  (0 < r → match mode with
    | .toNearestEven => (r < 1 / 2 → N = q) ∧ (1 / 2 < r → N = q + 1) ∧ (r = 1 / 2 → N % 2 = 0)
    | .toNearestAway => (r < 1 / 2 → N = q) ∧ (1 / 2 ≤ r → N = q + 1)
    | .toZero => N = q
    | .awayFromZero => N = q + 1
    | .toNegativeInf => N = if neg then q + 1 else q
    | .toPositiveInf => N = if neg then q else q + 1)

/-- Between consecutive `p`-bit numbers of one binade there is no other `p`-bit number. -/
theorem grid_gap {p q : ℕ} {j : ℤ} (hq1 : 2 ^ (p - 1) ≤ q) (hq2 : q < 2 ^ p) {k e : ℤ} (hk : |k| < 2 ^ p) :
    k * (2 : ℚ) ^ e ≤ q * 2 ^ j ∨ (q + 1) * (2 : ℚ) ^ j ≤ k * (2 : ℚ) ^ e := by
  have hu : (0 : ℚ) < 2 ^ j := by positivity
  rcases le_or_gt j e with h | h
  · obtain ⟨d, rfl⟩ : ∃ d : ℕ, e = d + j := ⟨(e - j).toNat, by omega⟩
    rw [zpow_add₀ (by norm_num), ← mul_assoc, zpow_natCast]
    rcases le_or_gt (k * 2 ^ d) (q : ℤ) with h1 | h1
    · left
      exact mul_le_mul_of_nonneg_right (by exact_mod_cast h1) hu.le
    · right
      exact mul_le_mul_of_nonneg_right (by exact_mod_cast h1) hu.le
  · left
    have hp : 1 ≤ p := by
      by_contra hc
      rw [show p = 0 by omega] at hq1 hq2
      norm_num at hq1 hq2; omega
    have h1 : (k : ℚ) ≤ 2 ^ p := by exact_mod_cast ((le_abs_self k).trans_lt hk).le
    have h2 : (2 : ℚ) ^ e ≤ 2 ^ (j - 1) := zpow_le_zpow_right₀ (by norm_num) (by omega)
    have h3 : (2 : ℚ) ^ p * 2 ^ (j - 1) = 2 ^ (p - 1) * 2 ^ j := by
      rw [← zpow_natCast, ← zpow_natCast, ← zpow_add₀ (by norm_num), ← zpow_add₀ (by norm_num)]
      congr 1; omega
    have h4 : (2 : ℚ) ^ (p - 1) ≤ q := by exact_mod_cast hq1
    calc (k : ℚ) * 2 ^ e ≤ 2 ^ p * 2 ^ e := mul_le_mul_of_nonneg_right h1 (by positivity)
      _ ≤ 2 ^ p * 2 ^ (j - 1) := mul_le_mul_of_nonneg_left h2 (by positivity)
      _ = _ := h3
      _ ≤ _ := mul_le_mul_of_nonneg_right h4 hu.le

/-- The exponent of a binade is unique. -/
theorem binade_unique {p : ℕ} (hp : 1 ≤ p) {a : ℚ} {i j : ℤ} (h1 : (2 : ℚ) ^ (p - 1) * 2 ^ i ≤ a) (h2 : a < (2 : ℚ) ^ p * 2 ^ i)
    (h3 : (2 : ℚ) ^ (p - 1) * 2 ^ j ≤ a) (h4 : a < (2 : ℚ) ^ p * 2 ^ j) : i = j := by
  rw [← zpow_natCast, ← zpow_add₀ (by norm_num)] at h1 h2 h3 h4
  have a1 := (zpow_lt_zpow_iff_right₀ (by norm_num : (1 : ℚ) < 2)).1 (h1.trans_lt h4)
  have a2 := (zpow_lt_zpow_iff_right₀ (by norm_num : (1 : ℚ) < 2)).1 (h3.trans_lt h2)
  omega

theorem step_spec {mode : RoundingMode} {neg : Bool} {p q N : ℕ} {r : ℚ} {j : ℤ} (hp : 1 ≤ p) (hq1 : 2 ^ (p - 1) ≤ q) (hq2 : q < 2 ^ p)
    (hr0 : 0 ≤ r) (hr1 : r < 1) (h : Step mode neg q r N) :
    RoundsToBitsIn mode p (signed neg ((q + r) * (2 : ℚ) ^ j)) (signed neg (N * (2 : ℚ) ^ j)) := by
  have hu : (0 : ℚ) < 2 ^ j := by positivity
  have hq0 : (1 : ℚ) ≤ q := by exact_mod_cast Nat.one_le_two_pow.trans hq1
  obtain ⟨hN, hz, hpos⟩ := h
  set u : ℚ := 2 ^ j with hudef
  -- the other candidates, with the sign taken out
  have gap : ∀ k e : ℤ, |k| < 2 ^ p → k * (2 : ℚ) ^ e ≤ q * u ∨ (q + 1) * u ≤ k * (2 : ℚ) ^ e := fun k e hk => grid_gap hq1 hq2 hk
  have gap' : ∀ k e : ℤ, |k| < 2 ^ p → -(k * (2 : ℚ) ^ e) ≤ q * u ∨ (q + 1) * u ≤ -(k * (2 : ℚ) ^ e) := fun k e hk => by
    have := gap (-k) e (by rwa [abs_neg])
    push_cast at this
    rwa [neg_mul] at this
  have gapa : ∀ k e : ℤ, |k| < 2 ^ p → |k * (2 : ℚ) ^ e| ≤ q * u ∨ (q + 1) * u ≤ |k * (2 : ℚ) ^ e| := fun k e hk => by
    rcases abs_choice (k * (2 : ℚ) ^ e) with h | h <;> rw [h]
    · exact gap k e hk
    · exact gap' k e hk
  have hNq : (N : ℚ) = q ∨ (N : ℚ) = q + 1 := by
    rcases hN with h | h
    · left; rw [h]
    · right; rw [h]; push_cast; ring
  have hN0 : (0 : ℚ) ≤ N := Nat.cast_nonneg N
  have hz' : r = 0 → (N : ℚ) = q := fun h => by rw [hz h]
  have fits : ∃ k e : ℤ, |k| < 2 ^ p ∧ signed neg (N * u) = k * (2 : ℚ) ^ e := by
    have key : ∃ k e : ℤ, |k| < 2 ^ p ∧ (N * u : ℚ) = k * (2 : ℚ) ^ e := by
      by_cases hc : N < 2 ^ p
      · exact ⟨N, j, by rw [abs_of_nonneg (by positivity)]; exact_mod_cast hc, by push_cast; rfl⟩
      · have : N = 2 ^ p := by omega
        refine ⟨1, p + j, ?_, ?_⟩
        · rw [abs_one]; exact one_lt_pow₀ (by norm_num) (by omega)
        · rw [this, zpow_add₀ (by norm_num)]; push_cast; rw [zpow_natCast, one_mul]
    obtain ⟨k, e, h1, h2⟩ := key
    cases neg with
    | false => exact ⟨k, e, h1, h2⟩
    | true => exact ⟨-k, e, by rwa [abs_neg], by push_cast; rw [neg_mul, ← h2]; rfl⟩
  have habsv : |signed neg ((q + r) * u)| = (q + r) * u := by
    cases neg <;> simp only [signed, Bool.false_eq_true, if_false, if_true]
    · exact abs_of_nonneg (by positivity)
    · rw [abs_neg]; exact abs_of_nonneg (by positivity)
  have habsr : |signed neg (N * u)| = N * u := by
    cases neg <;> simp only [signed, Bool.false_eq_true, if_false, if_true]
    · exact abs_of_nonneg (by positivity)
    · rw [abs_neg]; exact abs_of_nonneg (by positivity)
  have hsame : 0 ≤ signed neg (N * u) * signed neg ((q + r) * u) := by
    cases neg <;> simp only [signed, Bool.false_eq_true, if_false, if_true]
    · positivity
    · rw [neg_mul_neg]; positivity
  have hdist : |signed neg ((q + r) * u) - signed neg (N * u)| = |q + r - N| * u := by
    cases neg <;> simp only [signed, Bool.false_eq_true, if_false, if_true]
    · rw [← sub_mul, abs_mul, abs_of_pos hu]
    · rw [neg_sub_neg, abs_sub_comm, ← sub_mul, abs_mul, abs_of_pos hu]
  -- the distance to another candidate, and what the candidate is when the distance is that to a neighbour
  have hother : ∀ k e : ℤ, |k| < 2 ^ p → ∃ w : ℚ, signed neg w = k * (2 : ℚ) ^ e ∧
      |signed neg ((q + r) * u) - k * (2 : ℚ) ^ e| = |(q + r) * u - w| ∧ (w ≤ q * u ∨ (q + 1) * u ≤ w) := fun k e hk => by
    cases neg
    · exact ⟨k * 2 ^ e, rfl, rfl, gap k e hk⟩
    · refine ⟨-(k * 2 ^ e), by simp [signed], ?_, gap' k e hk⟩
      simp only [signed, if_true]
      rw [← abs_neg]; congr 1; ring
  have hru0 : 0 ≤ r * u := by positivity
  have hru1 : r * u < u := by nlinarith
  have a1 : (q + r) * u = q * u + r * u := by ring
  have a2 : (q + 1 : ℚ) * u = q * u + u := by ring
  have hqu : 0 ≤ q * u := by positivity
  -- distances from the number to what it is rounded to, when rounding to nearest
  have hnear : (r < 1 / 2 → N = q) → (1 / 2 < r → N = q + 1) → ∀ w : ℚ, (w ≤ q * u ∨ (q + 1) * u ≤ w) →
      |q + r - N| * u ≤ |(q + r) * u - w| ∧ (|q + r - N| * u = |(q + r) * u - w| → r ≠ 1 / 2 → w = N * u) ∧
      (|q + r - N| * u = |(q + r) * u - w| → r = 1 / 2 → w = q * u ∨ w = (q + 1) * u) := by
    intro h1 h2 w hw
    have hlow : (N : ℚ) = q → |q + r - N| * u = r * u := fun h => by
      rw [h, add_sub_cancel_left, abs_of_nonneg hr0]
    have hhigh : (N : ℚ) = q + 1 → |q + r - N| * u = u - r * u := fun h => by
      rw [h, show (q : ℚ) + r - (q + 1) = -(1 - r) by ring, abs_neg, abs_of_pos (by linarith)]; ring
    have hw' : (w ≤ q * u ∧ |(q + r) * u - w| = q * u + r * u - w) ∨
        ((q + 1) * u ≤ w ∧ |(q + r) * u - w| = w - (q * u + r * u)) := by
      rcases hw with h | h
      · left; refine ⟨h, ?_⟩; rw [a1]; exact abs_of_nonneg (by linarith)
      · right; refine ⟨h, ?_⟩; rw [a1, abs_sub_comm]; exact abs_of_nonneg (by linarith)
    rcases lt_trichotomy r (1 / 2) with hc | hc | hc
    · have hN1 : (N : ℚ) = q := by rw [h1 hc]
      have : r * u < u / 2 := by nlinarith
      rw [hlow hN1, hN1]
      rcases hw' with ⟨g1, g2⟩ | ⟨g1, g2⟩ <;> rw [g2]
      · exact ⟨by linarith, fun h _ => by linarith, fun _ h => absurd h hc.ne⟩
      · exact ⟨by linarith, fun h _ => by linarith, fun _ h => absurd h hc.ne⟩
    · have hh : r * u = u / 2 := by rw [hc]; ring
      have : |q + r - N| * u = u / 2 := by
        rcases hNq with h | h
        · rw [hlow h, hh]
        · rw [hhigh h, hh]; ring
      rw [this]
      rcases hw' with ⟨g1, g2⟩ | ⟨g1, g2⟩ <;> rw [g2]
      · exact ⟨by linarith, fun _ h => absurd hc h, fun h _ => Or.inl (by linarith)⟩
      · exact ⟨by linarith, fun _ h => absurd hc h, fun h _ => Or.inr (by linarith)⟩
    · have hN1 : (N : ℚ) = q + 1 := by rw [h2 hc]; push_cast; ring
      have : u / 2 < r * u := by nlinarith
      rw [hhigh hN1, hN1]
      rcases hw' with ⟨g1, g2⟩ | ⟨g1, g2⟩ <;> rw [g2]
      · exact ⟨by linarith, fun h _ => by linarith, fun _ h => absurd h hc.ne'⟩
      · exact ⟨by linarith, fun h _ => by linarith, fun _ h => absurd h hc.ne'⟩
  refine ⟨fits, ?_⟩
  rcases hr0.eq_or_lt with hr | hr
  · -- nothing to round
    have hr := hr.symm
    have hNq := hz' hr
    have hv : signed neg ((q + r) * u) = signed neg (N * u) := by rw [hNq, hr, add_zero]
    rw [hv]
    cases mode <;> simp only
    · refine ⟨fits, fun k e _ => by rw [sub_self, abs_zero]; exact abs_nonneg _, fun k e _ hne heq => ?_⟩
      rw [sub_self, abs_zero] at heq
      exact absurd (sub_eq_zero.1 (abs_eq_zero.1 heq.symm)).symm hne
    · intro k e _
      rw [sub_self, abs_zero]
      exact ⟨abs_nonneg _, fun heq => by rw [← sub_eq_zero.1 (abs_eq_zero.1 heq.symm)]⟩
    · exact ⟨mul_self_nonneg _, le_rfl, fun _ _ _ h => h⟩
    · exact ⟨mul_self_nonneg _, le_rfl, fun _ _ _ h => h⟩
    · exact ⟨le_rfl, fun _ _ _ h => h⟩
    · exact ⟨le_rfl, fun _ _ _ h => h⟩
  have hpos := hpos hr
  have hru : 0 < r * u := by positivity
  cases mode <;> simp only at hpos ⊢
  · -- to nearest even
    obtain ⟨h1, h2, h3⟩ := hpos
    refine ⟨fits, fun k e hk => ?_, fun k e hk hne heq i hi1 hi2 => ?_⟩
    · obtain ⟨w, -, w2, w3⟩ := hother k e hk
      rw [hdist, w2]
      exact (hnear h1 h2 w w3).1
    · obtain ⟨w, w1, w2, w3⟩ := hother k e hk
      rw [hdist, w2] at heq
      by_cases hh : r = 1 / 2
      · have hN2 := h3 hh
        have hij : i = j := by
          rw [habsv] at hi1 hi2
          refine binade_unique hp hi1 hi2 ?_ ?_
          · refine mul_le_mul_of_nonneg_right ?_ hu.le
            have : (2 : ℚ) ^ (p - 1) ≤ q := by exact_mod_cast hq1
            linarith
          · refine mul_lt_mul_of_pos_right ?_ hu
            have : (q : ℚ) + 1 ≤ 2 ^ p := by exact_mod_cast hq2
            linarith
        subst hij
        obtain ⟨M, hM⟩ : ∃ M, N = 2 * M := ⟨N / 2, by omega⟩
        cases neg
        · exact ⟨M, by rw [hM]; push_cast; rfl⟩
        · exact ⟨-M, by simp only [signed, if_true]; rw [hM]; push_cast; ring⟩
      · refine absurd ?_ hne
        rw [← w1, (hnear h1 h2 w w3).2.1 heq hh]
  · -- to nearest, ties away
    obtain ⟨h1, h2⟩ := hpos
    intro k e hk
    obtain ⟨w, w1, w2, w3⟩ := hother k e hk
    obtain ⟨n1, n2, n3⟩ := hnear h1 (fun h => h2 h.le) w w3
    rw [hdist, w2]
    refine ⟨n1, fun heq => ?_⟩
    rw [← w1, habsr]
    by_cases hh : r = 1 / 2
    · have hN1 : (N : ℚ) = q + 1 := by rw [h2 hh.ge]; push_cast; ring
      have : |signed neg w| = |w| := by cases neg <;> simp [signed]
      rw [this, hN1]
      rcases n3 heq hh with h | h <;> rw [h]
      · rw [abs_of_nonneg hqu]; linarith
      · rw [abs_of_nonneg (by linarith)]
    · rw [n2 heq hh, habsr]
  · have hN1 : (N : ℚ) = q := by rw [hpos]
    refine ⟨hsame, by rw [habsv, habsr, hN1]; linarith, fun k e hk hle => ?_⟩
    rw [habsv] at hle
    rw [habsr, hN1]
    rcases gapa k e hk with h | h
    · exact h
    · linarith
  · have hN1 : (N : ℚ) = q + 1 := by rw [hpos]; push_cast; ring
    refine ⟨hsame, by rw [habsv, habsr, hN1]; linarith, fun k e hk hle => ?_⟩
    rw [habsv] at hle
    rw [habsr, hN1]
    rcases gapa k e hk with h | h
    · linarith
    · exact h
  · cases neg <;> simp only [signed, Bool.false_eq_true, if_false, if_true] at hpos ⊢
    · have hN1 : (N : ℚ) = q := by rw [hpos]
      rw [hN1]
      refine ⟨by linarith, fun k e hk hle => ?_⟩
      rcases gap k e hk with h | h <;> linarith
    · have hN1 : (N : ℚ) = q + 1 := by rw [hpos]; push_cast; ring
      rw [hN1]
      refine ⟨by linarith, fun k e hk hle => ?_⟩
      rcases gap' k e hk with h | h <;> linarith
  · cases neg <;> simp only [signed, Bool.false_eq_true, if_false, if_true] at hpos ⊢
    · have hN1 : (N : ℚ) = q + 1 := by rw [hpos]; push_cast; ring
      rw [hN1]
      refine ⟨by linarith, fun k e hk hle => ?_⟩
      rcases gap k e hk with h | h <;> linarith
    · have hN1 : (N : ℚ) = q := by rw [hpos]
      rw [hN1]
      refine ⟨by linarith, fun k e hk hle => ?_⟩
      rcases gap' k e hk with h | h <;> linarith

namespace BigFloat

theorem round_step {z : BigFloat} (hf : z.form = .finite) (hm : 0 < z.mant) (hp : 1 ≤ z.prec) :
    ∃ (q N : ℕ) (r : ℚ), 2 ^ (z.prec - 1) ≤ q ∧ q < 2 ^ z.prec ∧ 0 ≤ r ∧ r < 1 ∧ z.mag = (q + r) * (2 : ℚ) ^ (z.exp - z.prec) ∧
      Step z.mode z.neg q r N ∧
      (z.round.form = .finite ∧ z.round.mag = N * (2 : ℚ) ^ (z.exp - z.prec) ∨ z.round.form = .inf ∧ MaxExp ≤ z.exp) := by
  by_cases hL : bitLen z.mant ≤ z.prec
  · have hr : z.round = { z with acc := .exact } := by
      unfold round; rw [hf]; simp only; rw [if_pos hL]
    obtain ⟨d, hd⟩ : ∃ d, z.prec = bitLen z.mant + d := ⟨z.prec - bitLen z.mant, by omega⟩
    have hmag : z.mag = ((z.mant * 2 ^ d : ℕ) : ℚ) * (2 : ℚ) ^ (z.exp - z.prec) := by
      rw [mag_eq]
      push_cast
      rw [mul_assoc, ← zpow_natCast, ← zpow_add₀ (by norm_num)]
      congr 2; omega
    refine ⟨z.mant * 2 ^ d, z.mant * 2 ^ d, 0, ?_, ?_, le_rfl, by norm_num, by rw [add_zero]; exact hmag, ⟨Or.inl rfl, fun _ => rfl, fun h => absurd h (lt_irrefl _)⟩, Or.inl ⟨by rw [hr]; exact hf, ?_⟩⟩
    · have h1 := two_pow_le_of_pos hm
      have hb : 1 ≤ bitLen z.mant := by
        by_contra hc
        have := lt_two_pow_bitLen z.mant
        rw [show bitLen z.mant = 0 by omega] at this
        omega
      rw [hd, show bitLen z.mant + d - 1 = bitLen z.mant - 1 + d by omega, pow_add]
      exact Nat.mul_le_mul_right _ h1
    · rw [hd, pow_add]
      exact Nat.mul_lt_mul_of_pos_right (lt_two_pow_bitLen z.mant) (Nat.two_pow_pos d)
    · rw [hr]; exact hmag
  · push Not at hL
    obtain ⟨s, hs⟩ : ∃ s, bitLen z.mant = z.prec + s := ⟨bitLen z.mant - z.prec, by omega⟩
    have hs1 : 1 ≤ s := by omega
    have hss : bitLen z.mant - z.prec = s := by omega
    set q := z.mant >>> s with hq
    have hqlt : q < 2 ^ z.prec := by
      rw [hq, Nat.shiftRight_eq_div_pow, Nat.div_lt_iff_lt_mul (Nat.two_pow_pos s), ← pow_add, ← hs]
      exact lt_two_pow_bitLen _
    have hqge : 2 ^ (z.prec - 1) ≤ q := by
      rw [hq, Nat.shiftRight_eq_div_pow, Nat.le_div_iff_mul_le (Nat.two_pow_pos s), ← pow_add]
      have := two_pow_le_of_pos hm
      rwa [show z.prec - 1 + s = bitLen z.mant - 1 by omega]
    have hbl : ∀ {n}, 2 ^ (z.prec - 1) ≤ n → n < 2 ^ z.prec → bitLen n = z.prec := by
      intro n h1 h2
      have := bitLen_eq_of (k := z.prec - 1) h1 (by rwa [Nat.sub_add_cancel hp])
      omega
    have hdm := Nat.div_add_mod z.mant (2 ^ s)
    have hmodlt := Nat.mod_lt z.mant (Nat.two_pow_pos s)
    set r : ℚ := ((z.mant % 2 ^ s : ℕ) : ℚ) / 2 ^ s with hr
    have hr0 : 0 ≤ r := by positivity
    have hr1 : r < 1 := by rw [hr, div_lt_one (by positivity)]; exact_mod_cast hmodlt
    have hmag : z.mag = (q + r) * 2 ^ (z.exp - z.prec) := by
      rw [mag_eq]
      have h1 : (z.mant : ℚ) = (q + r) * 2 ^ s := by
        rw [hr, add_mul, div_mul_cancel₀ _ (by positivity), hq, Nat.shiftRight_eq_div_pow]
        have : (z.mant : ℚ) = 2 ^ s * ((z.mant / 2 ^ s : ℕ) : ℚ) + ((z.mant % 2 ^ s : ℕ) : ℚ) := by
          exact_mod_cast hdm.symm
        rw [mul_comm ((z.mant / 2 ^ s : ℕ) : ℚ)]; exact this
      rw [h1, mul_assoc, ← zpow_natCast, ← zpow_add₀ (by norm_num)]
      congr 2; omega
    have hmagn : ∀ {n : ℕ} (a : Accuracy), 2 ^ (z.prec - 1) ≤ n → n < 2 ^ z.prec →
        ({ z with acc := a, form := .finite, mant := n } : BigFloat).mag = n * 2 ^ (z.exp - z.prec) := by
      intro n a h1 h2
      rw [mag_eq]; simp only; rw [hbl h1 h2]
    have hmod : z.mant % 2 ^ s = (if z.mant.testBit (s - 1) then 2 ^ (s - 1) else 0) + z.mant % 2 ^ (s - 1) := by
      obtain ⟨u, rfl⟩ : ∃ u, s = u + 1 := ⟨s - 1, by omega⟩
      simp only [Nat.add_sub_cancel]
      rw [Nat.mod_pow_succ, Nat.testBit_eq_decide_div_mod_eq]
      rcases Nat.mod_two_eq_zero_or_one (z.mant / 2 ^ u) with h | h <;> simp [h, Nat.add_comm]
    have hlow := Nat.mod_lt z.mant (Nat.two_pow_pos (s - 1))
    have hP : (2 : ℕ) ^ s = 2 * 2 ^ (s - 1) := by rw [← pow_succ']; congr 1; omega
    -- the remainder, the rounding bit and the sticky bit
    have rz : r = 0 ↔ z.mant % 2 ^ s = 0 := by
      rw [hr, div_eq_zero_iff]
      constructor
      · rintro (h | h)
        · exact_mod_cast h
        · exact absurd h (by positivity)
      · intro h; left; exact_mod_cast h
    have rlt : r < 1 / 2 ↔ z.mant % 2 ^ s < 2 ^ (s - 1) := by
      rw [hr, div_lt_iff₀ (by positivity)]
      have : (1 : ℚ) / 2 * 2 ^ s = ((2 ^ (s - 1) : ℕ) : ℚ) := by
        have : ((2 : ℚ)) ^ s = 2 * 2 ^ (s - 1) := by exact_mod_cast hP
        rw [this]; push_cast; ring
      rw [this, Nat.cast_lt]
    have rgt : 1 / 2 < r ↔ 2 ^ (s - 1) < z.mant % 2 ^ s := by
      rw [hr, lt_div_iff₀ (by positivity)]
      have : (1 : ℚ) / 2 * 2 ^ s = ((2 ^ (s - 1) : ℕ) : ℚ) := by
        have : ((2 : ℚ)) ^ s = 2 * 2 ^ (s - 1) := by exact_mod_cast hP
        rw [this]; push_cast; ring
      rw [this, Nat.cast_lt]
    have req : r = 1 / 2 ↔ z.mant % 2 ^ s = 2 ^ (s - 1) := by
      constructor
      · intro h
        have h1 := mt rlt.2 (by rw [h]; exact lt_irrefl _)
        have h2 := mt rgt.2 (by rw [h]; exact lt_irrefl _)
        omega
      · intro h
        have h1 := mt rlt.1 (by omega)
        have h2 := mt rgt.1 (by omega)
        linarith
    set rbit := z.mant.testBit (s - 1) with hrb
    set sbit := (z.mant % 2 ^ (s - 1) != 0) with hsb
    have hsb' : sbit = true ↔ z.mant % 2 ^ (s - 1) ≠ 0 := by rw [hsb]; simp
    have hpow := Nat.two_pow_pos (s - 1)
    by_cases hex : z.mant % 2 ^ s = 0
    · have hrf : rbit = false := by
        cases hb : rbit with
        | false => rfl
        | true => rw [hb] at hmod; simp at hmod; omega
      have hsf : sbit = false := by
        cases hb : sbit with
        | false => rfl
        | true => exact absurd (hsb'.1 hb) (by rw [hrf] at hmod; simp at hmod; omega)
      have hround : z.round = { z with acc := .exact, mant := q } := by
        unfold round; rw [hf]; simp only; rw [if_neg (by omega), hss, ← hrb, ← hsb, hrf, hsf]; simp [hq]
      refine ⟨q, q, r, hqge, hqlt, hr0, hr1, hmag, ⟨Or.inl rfl, fun _ => rfl, fun h => absurd (rz.2 hex) h.ne'⟩, Or.inl ?_⟩
      rw [hround]
      refine ⟨hf, ?_⟩
      have := hmagn .exact hqge hqlt
      rw [← this, hf]
    · have hr0' : 0 < r := lt_of_le_of_ne hr0 (fun h => hex (rz.1 h.symm))
      have hcond : (!rbit && !sbit) = false := by
        cases hb : rbit with
        | true => rfl
        | false =>
          cases hb' : sbit with
          | true => rfl
          | false =>
            have : ¬ z.mant % 2 ^ (s - 1) ≠ 0 := fun h => by rw [hsb'.2 h] at hb'; cases hb'
            rw [hb] at hmod; simp at hmod; omega
      set inc := roundInc z.mode z.neg rbit sbit (q.testBit 0) with hinc
      have hround : z.round = (if inc then
          if q + 1 = 2 ^ z.prec then
            if z.exp ≥ MaxExp then { z with acc := makeAcc (inc != z.neg), form := .inf }
            else { z with acc := makeAcc (inc != z.neg), mant := 2 ^ (z.prec - 1), exp := z.exp + 1 }
          else { z with acc := makeAcc (inc != z.neg), mant := q + 1 }
        else { z with acc := makeAcc (inc != z.neg), mant := q }) := by
        unfold round
        rw [hf]
        simp only
        rw [if_neg (by omega), hss, ← hq, ← hrb, ← hsb, hcond, ← hinc]
        simp only [Bool.false_eq_true, if_false]
      have hq2 : q % 2 = 0 ∨ q % 2 = 1 := by omega
      have hlsb : q.testBit 0 = decide (q % 2 = 1) := by rw [Nat.testBit_zero]
      refine ⟨q, if inc then q + 1 else q, r, hqge, hqlt, hr0, hr1, hmag, ⟨by split <;> simp, fun h => absurd h hr0'.ne', fun _ => ?_⟩, ?_⟩
      · have hrbit : rbit = decide (2 ^ (s - 1) ≤ z.mant % 2 ^ s) := by
          cases hb : rbit with
          | true => rw [hb] at hmod; simp at hmod; symm; rw [decide_eq_true_eq]; omega
          | false => rw [hb] at hmod; simp at hmod; symm; rw [decide_eq_false_iff_not]; omega
        have hsbit : rbit = true → (sbit = decide (z.mant % 2 ^ s ≠ 2 ^ (s - 1))) := by
          intro hb
          rw [hb] at hmod; simp at hmod
          rw [Bool.eq_iff_iff, hsb', decide_eq_true_eq]
          omega
        cases hmode : z.mode <;> simp only <;> rw [hmode] at hinc
        · -- to nearest even
          refine ⟨fun h => ?_, fun h => ?_, fun h => ?_⟩
          · rw [rlt] at h
            rw [show inc = false by rw [hinc]; unfold roundInc; simp only; rw [hrbit, decide_eq_false (by omega)]; rfl]
            rfl
          · rw [rgt] at h
            have hb : rbit = true := by rw [hrbit, decide_eq_true (by omega)]
            rw [show inc = true by rw [hinc]; unfold roundInc; simp only; rw [hsbit hb, hb, decide_eq_true (by omega)]; rfl]
            rfl
          · rw [req] at h
            have hb : rbit = true := by rw [hrbit, decide_eq_true (by omega)]
            rw [show inc = decide (q % 2 = 1) by rw [hinc]; unfold roundInc; simp only; rw [hsbit hb, hb, decide_eq_false (by omega), hlsb]; rfl]
            rcases hq2 with h2 | h2
            · rw [decide_eq_false (by omega)]; exact h2
            · rw [decide_eq_true h2]; show (q + 1) % 2 = 0; omega
        · refine ⟨fun h => ?_, fun h => ?_⟩
          · rw [rlt] at h
            rw [show inc = false by rw [hinc]; unfold roundInc; simp only; rw [hrbit, decide_eq_false (by omega)]]
            rfl
          · have h : ¬ r < 1 / 2 := not_lt.2 h
            rw [rlt] at h
            rw [show inc = true by rw [hinc]; unfold roundInc; simp only; rw [hrbit, decide_eq_true (by omega)]]
            rfl
        · rw [show inc = false from hinc]; rfl
        · rw [show inc = true from hinc]; rfl
        · rw [show inc = z.neg from hinc]
        · rw [show inc = !z.neg from hinc]; cases z.neg <;> rfl
      · rw [hround]
        cases inc with
        | false =>
          simp only [Bool.false_eq_true, if_false]
          exact Or.inl ⟨hf, by have := hmagn (makeAcc (false != z.neg)) hqge hqlt; rw [← this, hf]⟩
        | true =>
          simp only [if_true]
          by_cases hov : q + 1 = 2 ^ z.prec
          · rw [if_pos hov]
            by_cases hE : z.exp ≥ MaxExp
            · rw [if_pos hE]
              exact Or.inr ⟨rfl, hE⟩
            · rw [if_neg hE]
              refine Or.inl ⟨hf, ?_⟩
              rw [mag_eq]
              simp only
              rw [bitLen_two_pow, Nat.sub_add_cancel hp, hov, Nat.cast_pow, Nat.cast_pow, ← zpow_natCast, ← zpow_natCast,
                Nat.cast_ofNat, ← zpow_add₀ (by norm_num), ← zpow_add₀ (by norm_num)]
              congr 1; omega
          · rw [if_neg hov]
            refine Or.inl ⟨hf, ?_⟩
            have := hmagn (n := q + 1) (makeAcc (true != z.neg)) (by omega) (by omega)
            rw [← this, hf]

end BigFloat
end GoFloat
