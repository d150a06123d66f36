import Verif.Proofs.Sample
import Verif.Props.Detour
import Verif.Props.Nearest
import Verif.Props.Float128ppcModes
/-
C97: how far the result of a conversion is from its argument.
-/
namespace GoFloat
open Spec Float128ppc

/-- A number and its leading bits. -/
theorem trunc_err {m : ℚ} {e : ℤ} {p : ℕ} (h1 : (2 : ℚ) ^ (e - 1) ≤ m) :
    0 ≤ m - ⌊m * 2 ^ ((p : ℤ) - e)⌋ * (2 : ℚ) ^ (e - p) ∧ m - ⌊m * 2 ^ ((p : ℤ) - e)⌋ * (2 : ℚ) ^ (e - p) < m * (2 : ℚ) ^ (1 - (p : ℤ)) := by
  refine ⟨sub_nonneg.2 trunc_le, ?_⟩
  have hu : (0 : ℚ) < 2 ^ (e - p) := zpow_pos (by norm_num) _
  have h := mul_lt_mul_of_pos_right (Int.lt_floor_add_one (m * 2 ^ ((p : ℤ) - e))) hu
  rw [mul_assoc, ← zpow_add₀ (by norm_num), show (p : ℤ) - e + (e - p) = 0 by ring, zpow_zero, mul_one, add_mul, one_mul] at h
  have h2 : (2 : ℚ) ^ (e - p) ≤ m * (2 : ℚ) ^ (1 - (p : ℤ)) := by
    have := mul_le_mul_of_nonneg_right h1 (zpow_pos (by norm_num : (0 : ℚ) < 2) (1 - (p : ℤ))).le
    rwa [← zpow_add₀ (by norm_num), show e - 1 + (1 - (p : ℤ)) = e - p by ring] at this
  linarith

/-- A number and its whole part in units of `2^-k`. -/
theorem floor_err (m : ℚ) (k : ℤ) : 0 ≤ m - ⌊m * 2 ^ k⌋ * (2 : ℚ) ^ (-k) ∧ m - ⌊m * 2 ^ k⌋ * (2 : ℚ) ^ (-k) < (2 : ℚ) ^ (-k) := by
  have hu : (0 : ℚ) < 2 ^ (-k) := zpow_pos (by norm_num) _
  have hinv : (2 : ℚ) ^ k * 2 ^ (-k) = 1 := by rw [← zpow_add₀ (by norm_num)]; simp
  have h := mul_lt_mul_of_pos_right (Int.lt_floor_add_one (m * 2 ^ k)) hu
  have h' := mul_le_mul_of_nonneg_right (Int.floor_le (m * 2 ^ k)) hu.le
  rw [mul_assoc, hinv, mul_one] at h h'
  constructor <;> linarith

/-- A number and the nearest number of a format. -/
theorem nearest_err (F : Format) (hw : 2 ≤ F.w) {s : Bool} {m : ℚ} {c : ℕ} (hm : 0 ≤ m) (hov : m < F.overflowAt) (h : F.RoundsTo s m c) :
    ∃ r, F.decode c = .num s r ∧ |r - m| ≤ max (m * (2 : ℚ) ^ (-((F.t : ℤ) + 1))) ((2 : ℚ) ^ (F.qmin - 1)) := by
  unfold Format.RoundsTo at h
  rw [if_neg (not_le.2 hov)] at h
  obtain ⟨r, hr, hmin, -⟩ := h
  refine ⟨r, hr, ?_⟩
  have hcand : ∀ n, n < F.infCode → |r - m| ≤ |m - F.magc n| := by
    intro n hn
    have := hmin _ _ _ (F.decode_code s hn)
    rwa [signed_sub, signed_sub, abs_sub_comm] at this
  have hb1 := bias_pos F hw
  have hqm : F.qmin = 1 - F.bias - F.t := rfl
  rcases hm.eq_or_lt with h0 | h0
  · obtain ⟨n, hn, hv⟩ := exists_code F hw (N := 0) (q := F.qmin) (by positivity) le_rfl (by simp; positivity)
    have := hcand n hn
    rw [hv, ← h0] at this
    simp only [Nat.cast_zero, zero_mul, sub_zero, abs_zero] at this
    rw [← h0, sub_zero]
    exact this.trans (le_max_of_le_right (zpow_pos (by norm_num) _).le)
  obtain ⟨e, e1, e2⟩ := binade h0
  have hlt : m < (2 : ℚ) ^ (F.bias + 1) := by
    refine hov.trans_le ?_
    unfold Format.overflowAt
    rw [zpow_add_one₀ (by norm_num)]
    have hp : (0 : ℚ) < 2 ^ F.bias := zpow_pos (by norm_num) _
    have : (0 : ℚ) ≤ 1 / 2 ^ (F.t + 1) := by positivity
    nlinarith
  have he : e - 1 < F.bias + 1 := (zpow_lt_zpow_iff_right₀ (by norm_num : (1 : ℚ) < 2)).1 (e1.trans_lt hlt)
  obtain ⟨q, hq⟩ : ∃ q, q = max F.qmin (e - 1 - F.t) := ⟨_, rfl⟩
  have hu : (0 : ℚ) < 2 ^ q := zpow_pos (by norm_num) _
  obtain ⟨N, hN⟩ : ∃ N : ℕ, N = ⌊m / 2 ^ q⌋₊ := ⟨_, rfl⟩
  have n1 : (N : ℚ) * 2 ^ q ≤ m := by
    rw [hN]; exact (le_div_iff₀ hu).1 (Nat.floor_le (div_nonneg hm hu.le))
  have n2 : m < ((N + 1 : ℕ) : ℚ) * 2 ^ q := by
    rw [hN]; push_cast; exact (div_lt_iff₀ hu).1 (Nat.lt_floor_add_one _)
  have n3 : N < 2 ^ (F.t + 1) := by
    have : (N : ℚ) * 2 ^ q < 2 ^ (F.t + 1) * 2 ^ q := by
      refine (n1.trans_lt e2).trans_le ?_
      rw [← zpow_natCast, ← zpow_add₀ (by norm_num)]
      exact zpow_le_zpow_right₀ (by norm_num) (by push_cast; omega)
    exact_mod_cast lt_of_mul_lt_mul_right this hu.le
  have key : |r - m| ≤ 2 ^ q / 2 := by
    obtain ⟨n, hn, hv⟩ := exists_code F hw n3 (by omega : F.qmin ≤ q) (n1.trans_lt hlt)
    have c1 := hcand n hn
    rw [hv, abs_of_nonneg (sub_nonneg.2 n1)] at c1
    have hs : ((N + 1 : ℕ) : ℚ) * 2 ^ q = N * 2 ^ q + 2 ^ q := by push_cast; ring
    rw [hs] at n2
    by_cases hup : ((N + 1 : ℕ) : ℚ) * 2 ^ q < 2 ^ (F.bias + 1)
    · have : ∃ n', n' < F.infCode ∧ F.magc n' = ((N + 1 : ℕ) : ℚ) * 2 ^ q := by
        by_cases hN1 : N + 1 < 2 ^ (F.t + 1)
        · exact exists_code F hw hN1 (by omega) hup
        · have hN2 : N + 1 = 2 ^ F.t * 2 := by rw [← pow_succ]; omega
          have hv2 : ((N + 1 : ℕ) : ℚ) * 2 ^ q = ((2 ^ F.t : ℕ) : ℚ) * 2 ^ (q + 1) := by
            rw [hN2, zpow_add_one₀ (by norm_num)]; push_cast; ring
          rw [hv2] at hup ⊢
          exact exists_code F hw (by rw [pow_succ]; have := Nat.two_pow_pos F.t; omega) (by omega) hup
      obtain ⟨n', hn', hv'⟩ := this
      have c2 := hcand n' hn'
      rw [hv', hs, abs_of_nonpos (sub_nonpos.2 n2.le)] at c2
      linarith
    · push Not at hup
      rw [hs] at hup
      have hq2 : (2 : ℚ) ^ q ≤ 2 ^ (F.bias - F.t) := zpow_le_zpow_right₀ (by norm_num) (by omega)
      have hov2 : F.overflowAt = 2 ^ (F.bias + 1) - 2 ^ (F.bias - F.t) / 2 := by
        unfold Format.overflowAt
        rw [zpow_add_one₀ (by norm_num), zpow_sub₀ (by norm_num), zpow_natCast, pow_succ]
        field_simp
      rw [hov2] at hov
      linarith
  refine key.trans ?_
  rw [show (2 : ℚ) ^ q / 2 = 2 ^ (q - 1) by rw [zpow_sub_one₀ (by norm_num)]; ring]
  rcases le_total F.qmin (e - 1 - F.t) with hc | hc
  · rw [hq, max_eq_right hc]
    apply le_max_of_le_left
    rw [show e - 1 - (F.t : ℤ) - 1 = e - 1 + -((F.t : ℤ) + 1) by ring, zpow_add₀ (by norm_num)]
    exact mul_le_mul_of_nonneg_right e1 (zpow_pos (by norm_num) _).le
  · rw [hq, max_eq_left hc]
    exact le_max_right _ _

/-- Two neighbouring numbers of `p` bits around a number. -/
theorem bits_around {p : ℕ} (hp : 1 ≤ p) {v : ℚ} (hv : v ≠ 0) : ∃ k₁ E₁ k₂ E₂ : ℤ, ∃ u : ℚ, |k₁| < 2 ^ p ∧ |k₂| < 2 ^ p ∧
    k₁ * (2 : ℚ) ^ E₁ ≤ v ∧ v ≤ k₂ * (2 : ℚ) ^ E₂ ∧ k₂ * (2 : ℚ) ^ E₂ = k₁ * (2 : ℚ) ^ E₁ + u ∧ u ≤ |v| * (2 : ℚ) ^ (1 - (p : ℤ)) ∧ 0 < u ∧
    (0 < v → 0 ≤ k₁ * (2 : ℚ) ^ E₁) ∧ (v < 0 → k₂ * (2 : ℚ) ^ E₂ ≤ 0) := by
  obtain ⟨e, e1, e2⟩ := binade (abs_pos.2 hv)
  have hu : (0 : ℚ) < 2 ^ (e - p) := zpow_pos (by norm_num) _
  have fits : ∀ k : ℤ, |k| ≤ 2 ^ p → ∃ k' E' : ℤ, |k'| < 2 ^ p ∧ k' * (2 : ℚ) ^ E' = k * 2 ^ (e - p) := by
    intro k hk
    rcases hk.lt_or_eq with h | h
    · exact ⟨k, _, h, rfl⟩
    · have h1 : (1 : ℤ) < 2 ^ p := one_lt_pow₀ (by norm_num) (by omega)
      have h2 : (2 : ℚ) ^ e = 2 ^ p * 2 ^ (e - p) := by
        rw [← zpow_natCast, ← zpow_add₀ (by norm_num)]; congr 1; ring
      rcases (abs_eq (by positivity)).1 h with h | h
      · exact ⟨1, e, by simpa using h1, by rw [h, h2]; push_cast; ring⟩
      · exact ⟨-1, e, by simpa using h1, by rw [h, h2]; push_cast; ring⟩
  obtain ⟨k, hk⟩ : ∃ k, k = ⌊v / 2 ^ (e - p)⌋ := ⟨_, rfl⟩
  have k1 : (k : ℚ) * 2 ^ (e - p) ≤ v := by rw [hk]; exact (le_div_iff₀ hu).1 (Int.floor_le _)
  have k2 : v < ((k + 1 : ℤ) : ℚ) * 2 ^ (e - p) := by rw [hk]; push_cast; exact (div_lt_iff₀ hu).1 (Int.lt_floor_add_one _)
  have h2 : (2 : ℚ) ^ e = ((2 ^ p : ℤ) : ℚ) * 2 ^ (e - p) := by
    rw [Int.cast_pow, Int.cast_ofNat, ← zpow_natCast, ← zpow_add₀ (by norm_num)]; congr 1; ring
  rw [h2, abs_lt] at e2
  have b1 : k < 2 ^ p := by exact_mod_cast lt_of_mul_lt_mul_right (k1.trans_lt e2.2) hu.le
  have b2 : -2 ^ p < k + 1 := by
    have : ((-2 ^ p : ℤ) : ℚ) * 2 ^ (e - p) < ((k + 1 : ℤ) : ℚ) * 2 ^ (e - p) := by
      refine lt_trans ?_ k2
      push_cast at e2 ⊢
      linarith [e2.1]
    exact_mod_cast lt_of_mul_lt_mul_right this hu.le
  obtain ⟨k₁, E₁, f1, g1⟩ := fits k (abs_le.2 ⟨by omega, by omega⟩)
  obtain ⟨k₂, E₂, f2, g2⟩ := fits (k + 1) (abs_le.2 ⟨by omega, by omega⟩)
  refine ⟨k₁, E₁, k₂, E₂, 2 ^ (e - p), f1, f2, by rw [g1]; exact k1, by rw [g2]; exact k2.le, by rw [g1, g2]; push_cast; ring, ?_, hu, ?_, ?_⟩
  · have := mul_le_mul_of_nonneg_right e1 (zpow_pos (by norm_num : (0 : ℚ) < 2) (1 - (p : ℤ))).le
    rwa [← zpow_add₀ (by norm_num), show e - 1 + (1 - (p : ℤ)) = e - p by ring] at this
  · intro h
    rw [g1]
    have : 0 ≤ k := by rw [hk]; exact Int.floor_nonneg.2 (div_nonneg h.le hu.le)
    exact mul_nonneg (by exact_mod_cast this) hu.le
  · intro h
    rw [g2]
    have : k < 0 := by rw [hk]; exact Int.floor_lt.2 (by simpa using div_neg_of_neg_of_pos h hu)
    exact mul_nonpos_of_nonpos_of_nonneg (by exact_mod_cast (by omega : k + 1 ≤ 0)) hu.le

/-- Rounding to `p` bits to nearest. -/
theorem bits_err {p : ℕ} (hp : 1 ≤ p) {v r : ℚ} (hv : v ≠ 0) (h : ∀ k e : ℤ, |k| < 2 ^ p → |v - r| ≤ |v - k * (2 : ℚ) ^ e|) :
    |v - r| ≤ |v| * (2 : ℚ) ^ (-(p : ℤ)) := by
  obtain ⟨k₁, E₁, k₂, E₂, u, a1, a2, a3, a4, a5, a6, a7, -, -⟩ := bits_around hp hv
  have b1 := h k₁ E₁ a1
  have b2 := h k₂ E₂ a2
  rw [abs_of_nonneg (sub_nonneg.2 a3)] at b1
  rw [abs_of_nonpos (sub_nonpos.2 a4)] at b2
  rw [show (1 : ℤ) - p = -(p : ℤ) + 1 by ring, zpow_add_one₀ (by norm_num)] at a6
  linarith

/-- Rounding to `p` bits in any mode. -/
theorem mode_err {mode : RoundingMode} {p : ℕ} (hp : 1 ≤ p) {v r : ℚ} (hv : v ≠ 0) (h : RoundsToBitsIn mode p v r) :
    |v - r| ≤ |v| * (2 : ℚ) ^ (1 - (p : ℤ)) := by
  have near : (∀ k e : ℤ, |k| < 2 ^ p → |v - r| ≤ |v - k * (2 : ℚ) ^ e|) → |v - r| ≤ |v| * (2 : ℚ) ^ (1 - (p : ℤ)) := by
    intro h
    refine (bits_err hp hv h).trans (mul_le_mul_of_nonneg_left (zpow_le_zpow_right₀ (by norm_num) (by omega)) (abs_nonneg _))
  obtain ⟨-, h⟩ := h
  obtain ⟨k₁, E₁, k₂, E₂, u, a1, a2, a3, a4, a5, a6, a7, a8, a9⟩ := bits_around hp hv
  generalize hL : (k₁ : ℚ) * 2 ^ E₁ = L at *
  generalize hU : (k₂ : ℚ) * 2 ^ E₂ = U at *
  cases mode with
  | toNearestEven => exact near h.2.1
  | toNearestAway => exact near fun k e hk => (h k e hk).1
  | toZero =>
    obtain ⟨h1, h2, h3⟩ := h
    refine le_trans ?_ a6
    have b1 := h3 k₁ E₁ a1
    have b2 := h3 k₂ E₂ a2
    rw [hL] at b1
    rw [hU] at b2
    rcases lt_or_gt_of_ne hv with hn | hn
    · have hr : r ≤ 0 := by nlinarith
      have := a9 hn
      rw [abs_of_nonpos this, abs_of_neg hn, abs_of_nonpos hr] at b2
      rw [abs_of_nonpos hr, abs_of_neg hn] at h2
      have := b2 (by linarith)
      rw [abs_of_nonpos (by linarith)]; linarith
    · have hr : 0 ≤ r := by nlinarith
      have := a8 hn
      rw [abs_of_nonneg this, abs_of_pos hn, abs_of_nonneg hr] at b1
      rw [abs_of_nonneg hr, abs_of_pos hn] at h2
      have := b1 (by linarith)
      rw [abs_of_nonneg (by linarith)]; linarith
  | awayFromZero =>
    obtain ⟨h1, h2, h3⟩ := h
    refine le_trans ?_ a6
    have b1 := h3 k₁ E₁ a1
    have b2 := h3 k₂ E₂ a2
    rw [hL] at b1
    rw [hU] at b2
    rcases lt_or_gt_of_ne hv with hn | hn
    · have hr : r ≤ 0 := by nlinarith
      rw [abs_of_nonpos (a3.trans hn.le), abs_of_neg hn, abs_of_nonpos hr] at b1
      rw [abs_of_nonpos hr, abs_of_neg hn] at h2
      have := b1 (by linarith)
      rw [abs_of_nonneg (by linarith)]; linarith
    · have hr : 0 ≤ r := by nlinarith
      rw [abs_of_nonneg (hn.le.trans a4), abs_of_pos hn, abs_of_nonneg hr] at b2
      rw [abs_of_nonneg hr, abs_of_pos hn] at h2
      have := b2 (by linarith)
      rw [abs_of_nonpos (by linarith)]; linarith
  | toNegativeInf =>
    obtain ⟨h1, h2⟩ := h
    refine le_trans ?_ a6
    have b1 := h2 k₁ E₁ a1
    rw [hL] at b1
    have := b1 a3
    rw [abs_of_nonneg (by linarith)]; linarith
  | toPositiveInf =>
    obtain ⟨h1, h2⟩ := h
    refine le_trans ?_ a6
    have b1 := h2 k₂ E₂ a2
    rw [hU] at b1
    have := b1 a4
    rw [abs_of_nonpos (by linarith)]; linarith

namespace Binary16

/-- C97: what `NewFromBig` makes of a number from `2^-24` up to `2^16` is not larger in magnitude, and smaller by less than one part in `2^10` or by
less than `2^-24`. -/
theorem C97_binary16 (x : BigFloat) (hx : x.WF) {s : Bool} {m : ℚ} (hd : x.datum = .num s m) (h1 : (2 : ℚ) ^ (-24 : ℤ) ≤ m)
    (h2 : m < (2 : ℚ) ^ (16 : ℤ)) :
    ∃ f acc r, newFromBig x = .ok (f, acc) ∧ half.decode f.bits.toNat = .num s r ∧ 0 ≤ m - r ∧
      m - r < max (m * (2 : ℚ) ^ (-10 : ℤ)) ((2 : ℚ) ^ (-24 : ℤ)) := by
  obtain ⟨e, b1, b2⟩ := binade (lt_of_lt_of_le (zpow_pos (by norm_num) _) h1)
  have e1 := (zpow_lt_zpow_iff_right₀ (by norm_num : (1 : ℚ) < 2)).1 (h1.trans_lt b2)
  have e2 := (zpow_lt_zpow_iff_right₀ (by norm_num : (1 : ℚ) < 2)).1 (b1.trans_lt h2)
  obtain ⟨f, acc, hr, -, a2, -, a4, -⟩ := C66_binary16 x hx hd b1 b2
  by_cases hs : e ≤ -14
  · have ⟨c1, c2⟩ := floor_err m 24
    exact ⟨f, acc, _, hr, a2 e1 hs, c1, c2.trans_le (le_max_right _ _)⟩
  · have ⟨c1, c2⟩ := trunc_err (p := 11) b1
    have h := a4 (by omega) (by omega) (by omega)
    rw [Int.emod_eq_of_lt (by omega) (by omega), show e + 14 - 25 = e - (11 : ℕ) by push_cast; ring,
      show 11 - e = ((11 : ℕ) : ℤ) - e by norm_num] at h
    exact ⟨f, acc, _, hr, h, c1, c2.trans_le (le_max_left _ _)⟩

example := C97_binary16 Sample.y Sample.y_wf Sample.y_datum (Sample.le_one (by norm_num) (by norm_num)) (Sample.lt_two (by norm_num) (by norm_num))

/-- C97: what `NewFromFloat64` makes of a double from `2^-14` up to 65520 differs from it by at most one part in `2^11`. -/
theorem C97_binary16_float64 (x : F64) {s : Bool} {m : ℚ} (hd : double.decode x.toNat = .num s m) (h1 : (2 : ℚ) ^ (-14 : ℤ) ≤ m)
    (h2 : m < 65520) :
    ∃ f acc r, newFromFloat64 x = .ok (f, acc) ∧ half.decode f.bits.toNat = .num s r ∧ |r - m| ≤ m * (2 : ℚ) ^ (-11 : ℤ) := by
  have h0 : 0 < m := lt_of_lt_of_le (zpow_pos (by norm_num) _) h1
  obtain ⟨f, acc, -, hr, -, -, -, a3, -⟩ := C71_binary16_float64 x hd h0.ne'
  have hrt := a3 h1 (h2.trans (by norm_num))
  have hov : half.overflowAt = 65520 := by norm_num [Format.overflowAt, half, Format.bias]
  obtain ⟨r, hdec, herr⟩ := nearest_err half (by decide) h0.le (by rw [hov]; exact h2) hrt
  refine ⟨f, acc, r, hr, hdec, herr.trans (max_le le_rfl ?_)⟩
  have : half.qmin = -24 := by decide
  rw [this]
  norm_num at h1 ⊢
  linarith

example := C97_binary16_float64 0xBFF6000000000000 Sample.x_double (Sample.le_one (by norm_num) (by norm_num)) (by norm_num)

end Binary16

namespace Binary128

/-- C97: what `NewFromBig` makes of a number from `2^-16494` up to `2^16384` is not larger in magnitude, and smaller by less than one part in `2^112`
or by less than `2^-16494`. -/
theorem C97_binary128 (x : BigFloat) (hx : x.WF) {s : Bool} {m : ℚ} (hd : x.datum = .num s m) (h1 : (2 : ℚ) ^ (-16494 : ℤ) ≤ m)
    (h2 : m < (2 : ℚ) ^ (16384 : ℤ)) :
    ∃ f acc r, newFromBig x = .ok (f, acc) ∧ quad.decode f.code = .num s r ∧ 0 ≤ m - r ∧
      m - r < max (m * (2 : ℚ) ^ (-112 : ℤ)) ((2 : ℚ) ^ (-16494 : ℤ)) := by
  obtain ⟨e, b1, b2⟩ := binade (lt_of_lt_of_le (zpow_pos (by norm_num) _) h1)
  have e1 := (zpow_lt_zpow_iff_right₀ (by norm_num : (1 : ℚ) < 2)).1 (h1.trans_lt b2)
  have e2 := (zpow_lt_zpow_iff_right₀ (by norm_num : (1 : ℚ) < 2)).1 (b1.trans_lt h2)
  obtain ⟨f, acc, hr, -, a2, -, a4, -⟩ := C66_binary128 x hx hd b1 b2
  by_cases hs : e ≤ -16382
  · have ⟨c1, c2⟩ := floor_err m 16494
    exact ⟨f, acc, _, hr, a2 e1 hs, c1, c2.trans_le (le_max_right _ _)⟩
  · have ⟨c1, c2⟩ := trunc_err (p := 113) b1
    have h := a4 (by omega) (by omega) (by omega)
    rw [Int.emod_eq_of_lt (by omega) (by omega), show e + 16382 - 16495 = e - (113 : ℕ) by push_cast; ring,
      show 113 - e = ((113 : ℕ) : ℤ) - e by norm_num] at h
    exact ⟨f, acc, _, hr, h, c1, c2.trans_le (le_max_left _ _)⟩

example := C97_binary128 Sample.y Sample.y_wf Sample.y_datum (Sample.le_one (by norm_num) (by norm_num)) (Sample.lt_two (by norm_num) (by norm_num))

/-- C97: `Float64` and `Float32` of a number below the overflow threshold differ from it by at most one part in `2^53` and `2^24`, or by at most
`2^-1075` and `2^-150`. -/
theorem C97_binary128_narrow (f : Float) {s : Bool} {m : ℚ} (hd : quad.decode f.code = .num s m) :
    (m < double.overflowAt → ∃ r acc v, f.float64 = .ok (r, acc) ∧ double.decode r.toNat = .num s v ∧
      |v - m| ≤ max (m * (2 : ℚ) ^ (-53 : ℤ)) ((2 : ℚ) ^ (-1075 : ℤ))) ∧
    (m < single.overflowAt → ∃ r acc v, f.float32 = .ok (r, acc) ∧ single.decode r.toNat = .num s v ∧
      |v - m| ≤ max (m * (2 : ℚ) ^ (-24 : ℤ)) ((2 : ℚ) ^ (-150 : ℤ))) := by
  have hm : 0 ≤ m := by
    obtain ⟨n, -, rfl, -⟩ := quad.code_of_decode hd
    exact quad.magc_nonneg n
  constructor
  · intro hov
    obtain ⟨r, acc, hr, hc⟩ := C17_binary128_float64 f
    rw [hd] at hc
    obtain ⟨v, h1, h2⟩ := nearest_err double (by decide) hm hov hc.1
    rw [qmins.1] at h2
    exact ⟨r, acc, v, hr, h1, h2⟩
  · intro hov
    obtain ⟨r, acc, hr, hc⟩ := C17_binary128_float32 f
    rw [hd] at hc
    obtain ⟨v, h1, h2⟩ := nearest_err single (by decide) hm hov hc.1
    rw [qmins.2] at h2
    exact ⟨r, acc, v, hr, h1, h2⟩

example := C97_binary128_narrow ⟨0xBFFF600000000000, 0⟩ Sample.x_quad

end Binary128

namespace Float80x86

/-- C97: what `NewFromBig` makes of a number from `2^-16445` up to `2^16384` is not larger in magnitude, and smaller by less than one part in `2^63` or
by less than `2^-16445`. -/
theorem C97_float80x86 (x : BigFloat) (hx : x.WF) {s : Bool} {m : ℚ} (hd : x.datum = .num s m) (h1 : (2 : ℚ) ^ (-16445 : ℤ) ≤ m)
    (h2 : m < (2 : ℚ) ^ (16384 : ℤ)) :
    ∃ f acc r, newFromBig x = .ok (f, acc) ∧ f.val = .num s r ∧ 0 ≤ m - r ∧
      m - r < max (m * (2 : ℚ) ^ (-63 : ℤ)) ((2 : ℚ) ^ (-16445 : ℤ)) := by
  obtain ⟨e, b1, b2⟩ := binade (lt_of_lt_of_le (zpow_pos (by norm_num) _) h1)
  have e1 := (zpow_lt_zpow_iff_right₀ (by norm_num : (1 : ℚ) < 2)).1 (h1.trans_lt b2)
  have e2 := (zpow_lt_zpow_iff_right₀ (by norm_num : (1 : ℚ) < 2)).1 (b1.trans_lt h2)
  obtain ⟨f, acc, hr, -, a2, a4, -⟩ := C66_float80x86 x hx hd b1 b2
  by_cases hs : e ≤ -16382
  · have ⟨c1, c2⟩ := floor_err m 16445
    exact ⟨f, acc, _, hr, a2 e1 hs, c1, c2.trans_le (le_max_right _ _)⟩
  · have ⟨c1, c2⟩ := trunc_err (p := 64) b1
    have h := a4 (by omega) (by omega)
    rw [Int.emod_eq_of_lt (by omega) (by omega), max_eq_left (by omega), show e + 16382 - 16446 = e - (64 : ℕ) by push_cast; ring,
      show 64 - e = ((64 : ℕ) : ℤ) - e by norm_num] at h
    exact ⟨f, acc, _, hr, h, c1, c2.trans_le (le_max_left _ _)⟩

example := C97_float80x86 Sample.y Sample.y_wf Sample.y_datum (Sample.le_one (by norm_num) (by norm_num)) (Sample.lt_two (by norm_num) (by norm_num))

/-- C97: the same for `Float64` and `Float32` of every encoding of a number. -/
theorem C97_float80x86_narrow (f : Float) {s : Bool} {m : ℚ} (hd : f.val = .num s m) :
    (m < double.overflowAt → ∃ r acc v, f.float64 = .ok (r, acc) ∧ double.decode r.toNat = .num s v ∧
      |v - m| ≤ max (m * (2 : ℚ) ^ (-53 : ℤ)) ((2 : ℚ) ^ (-1075 : ℤ))) ∧
    (m < single.overflowAt → ∃ r acc v, f.float32 = .ok (r, acc) ∧ single.decode r.toNat = .num s v ∧
      |v - m| ≤ max (m * (2 : ℚ) ^ (-24 : ℤ)) ((2 : ℚ) ^ (-150 : ℤ))) := by
  have hm : 0 ≤ m := by
    obtain ⟨y, nan, -, -, -, -, -, hdec⟩ := C20_float80x86_big f
    rw [hd] at hdec
    exact Binary16.datum_nonneg hdec.2
  constructor
  · intro hov
    obtain ⟨r, acc, hr, hc⟩ := C23_float80x86_float64 f
    rw [hd] at hc
    obtain ⟨v, h1, h2⟩ := nearest_err double (by decide) hm hov hc.1
    rw [qmins.1] at h2
    exact ⟨r, acc, v, hr, h1, h2⟩
  · intro hov
    obtain ⟨r, acc, hr, hc⟩ := C23_float80x86_float32 f
    rw [hd] at hc
    obtain ⟨v, h1, h2⟩ := nearest_err single (by decide) hm hov hc.1
    rw [qmins.2] at h2
    exact ⟨r, acc, v, hr, h1, h2⟩

example := C97_float80x86_narrow ⟨0xBFFF, 0xB000000000000000⟩ Sample.x_val

end Float80x86

namespace Float128ppc

theorem overflow_le : double.overflowAt ≤ (2 : ℚ) ^ (1024 : ℤ) := by
  unfold Format.overflowAt
  rw [show double.bias = 1023 by decide, show (1024 : ℤ) = 1023 + 1 by norm_num, zpow_add_one₀ (by norm_num)]
  have hp : (0 : ℚ) < 2 ^ (1023 : ℤ) := zpow_pos (by norm_num) _
  have : (0 : ℚ) ≤ 1 / 2 ^ (double.t + 1) := by positivity
  generalize (2 : ℚ) ^ (1023 : ℤ) = A at *
  nlinarith

/-- C97: the two doubles that `NewFromBig` makes of a number from `2^-969` up to the overflow threshold differ from it in sum by at most one part in
`2^105`, and by at most one part in `2^106` if the argument rounds to nearest. -/
theorem C97_float128ppc (x : BigFloat) (hx : x.WF) (hf : x.form = .finite) (hlo : 2 ^ (-969 : ℤ) ≤ x.mag)
    (hhi : x.mag < double.overflowAt - 2 ^ (919 : ℤ)) :
    ∃ f x' mh sl ml, newFromBig x = .ok ((f, .exact), x') ∧ double.decode f.high.toNat = .num x.neg mh ∧
      double.decode f.low.toNat = .num sl ml ∧ |signed x.neg mh + signed sl ml - x.sval| ≤ x.mag * (2 : ℚ) ^ (-105 : ℤ) ∧
      (x.mode = .toNearestEven ∨ x.mode = .toNearestAway → |signed x.neg mh + signed sl ml - x.sval| ≤ x.mag * (2 : ℚ) ^ (-106 : ℤ)) := by
  obtain ⟨v, hv⟩ := rounds_exists x hx hf
  have h0 := sval_ne_zero hx hf
  have habs : |x.sval| = x.mag := by
    rw [BigFloat.sval_finite hf]
    exact BigFloat.signed_abs ((zpow_pos (by norm_num) _).le.trans hlo)
  have herr := mode_err (by norm_num) h0 hv
  rw [habs] at herr
  have hvlt : |v| < double.overflowAt := by
    have h1 : |v| ≤ |x.sval| + |x.sval - v| := by
      have := abs_sub_abs_le_abs_sub v x.sval
      rw [abs_sub_comm v] at this
      linarith
    have h2 : x.mag * (2 : ℚ) ^ (1 - ((106 : ℕ) : ℤ)) ≤ 2 ^ (919 : ℤ) := by
      have h3 : x.mag ≤ 2 ^ (1024 : ℤ) := by
        have := overflow_le
        have hp : (0 : ℚ) < 2 ^ (919 : ℤ) := zpow_pos (by norm_num) _
        generalize (2 : ℚ) ^ (919 : ℤ) = A at *
        linarith
      refine (mul_le_mul_of_nonneg_right h3 (zpow_pos (by norm_num) _).le).trans ?_
      rw [← zpow_add₀ (by norm_num)]
      exact zpow_le_zpow_right₀ (by norm_num) (by norm_num)
    rw [habs] at h1
    generalize (2 : ℚ) ^ (919 : ℤ) = A at *
    linarith
  obtain ⟨f, x', h1, mh, sl, ml, h2, h3, h4, h5, -⟩ := C29_modes_partial x hx hf hv hlo hvlt
  refine ⟨f, x', mh, sl, ml, h1, h2, h4, ?_, ?_⟩
  · rw [h5, abs_sub_comm]; exact herr
  · intro hm
    rw [h5, abs_sub_comm, ← habs]
    obtain ⟨-, hv⟩ := hv
    rcases hm with hm | hm
    · rw [hm] at hv; exact bits_err (p := 106) (by norm_num) h0 hv.2.1
    · rw [hm] at hv; exact bits_err (p := 106) (by norm_num) h0 fun k e hk => (hv k e hk).1

/-- C97: `Float64` of two finite doubles whose sum is from `2^-1021` up to the overflow threshold in magnitude differs from the sum by at most one part
in `2^53` and one in `2^105`. -/
theorem C97_float128ppc_float64 (f : Float) {s₁ s₂ : Bool} {m₁ m₂ : ℚ} (h1 : double.decode f.high.toNat = .num s₁ m₁)
    (h2 : double.decode f.low.toNat = .num s₂ m₂) {v : ℚ} (hv : v = signed s₁ m₁ + signed s₂ m₂) (hlo : (2 : ℚ) ^ (-1021 : ℤ) ≤ |v|)
    (hhi : |v| < double.overflowAt - 2 ^ (918 : ℤ)) :
    ∃ r acc s m, f.float64 = .ok (r, acc) ∧ double.decode r.toNat = .num s m ∧
      |signed s m - v| ≤ |v| * ((2 : ℚ) ^ (-53 : ℤ) + (2 : ℚ) ^ (-105 : ℤ)) := by
  have h0 : v ≠ 0 := by
    rintro rfl
    rw [abs_zero] at hlo
    exact absurd (zpow_pos (by norm_num : (0 : ℚ) < 2) (-1021)) (not_lt.2 hlo)
  obtain ⟨x, nan, hb, hsum⟩ := C27_partial f (by intro s; rw [h1]; simp)
  rw [h1, h2] at hsum
  obtain ⟨rfl, -, -, hwf, s, m, hd, hr, -, -, hs1⟩ := hsum
  rw [← hv] at hr hs1
  have hm0 : 0 ≤ m := Binary16.datum_nonneg hd
  have herr := bits_err (p := 106) (by norm_num) h0 hr.2.1
  have hsm : |signed s m| = m := BigFloat.signed_abs hm0
  have hmle : |m - (|v|)| ≤ |v| * (2 : ℚ) ^ (-106 : ℤ) := by
    have := abs_abs_sub_abs_le_abs_sub (signed s m) v
    rw [hsm, abs_sub_comm (signed s m)] at this
    exact this.trans herr
  have hmov : m < double.overflowAt := by
    have h3 : |v| * (2 : ℚ) ^ (-106 : ℤ) ≤ 2 ^ (918 : ℤ) := by
      have h3 : |v| ≤ 2 ^ (1024 : ℤ) := by
        have := overflow_le
        have hp : (0 : ℚ) < 2 ^ (918 : ℤ) := zpow_pos (by norm_num) _
        generalize (2 : ℚ) ^ (918 : ℤ) = A at *
        linarith
      refine (mul_le_mul_of_nonneg_right h3 (zpow_pos (by norm_num) _).le).trans ?_
      rw [← zpow_add₀ (by norm_num)]
      exact zpow_le_zpow_right₀ (by norm_num) (by norm_num)
    have := le_abs_self (m - (|v|))
    generalize (2 : ℚ) ^ (918 : ℤ) = A at *
    linarith
  have hdec : Decoded (.num s m) x false := ⟨rfl, hd⟩
  obtain ⟨r, hrd, hre⟩ := nearest_err double (by decide) hm0 hmov ((toF64_spec hwf hdec).2.2.1 s m rfl)
  refine ⟨_, _, s, r, float64_of_big hb, hrd, ?_⟩
  rw [qmins.1] at hre
  have hq : (2 : ℚ) ^ (-(((double.t : ℕ) : ℤ) + 1)) = 2 ^ (-53 : ℤ) := rfl
  rw [hq] at hre
  -- `m` is at least half of the least normal number above
  have hmlo : (2 : ℚ) ^ (-1022 : ℤ) ≤ m := by
    have h4 : (2 : ℚ) ^ (-1022 : ℤ) * 2 = 2 ^ (-1021 : ℤ) := by rw [← zpow_add_one₀ (by norm_num)]; norm_num
    have h5 : |v| * (2 : ℚ) ^ (-106 : ℤ) ≤ |v| * (1 / 2) := mul_le_mul_of_nonneg_left (by norm_num) (abs_nonneg _)
    have := neg_abs_le (m - (|v|))
    have h6 := hmle.trans h5
    clear h5 hmle herr hre hhi hq
    generalize (2 : ℚ) ^ (-1022 : ℤ) = A at *
    generalize (2 : ℚ) ^ (-1021 : ℤ) = B at *
    linarith
  have hmax : (2 : ℚ) ^ ((-1074 : ℤ) - 1) ≤ m * (2 : ℚ) ^ (-53 : ℤ) := by
    have := mul_le_mul_of_nonneg_right hmlo (zpow_pos (by norm_num : (0 : ℚ) < 2) (-53)).le
    rwa [← zpow_add₀ (by norm_num)] at this
  rw [max_eq_left hmax] at hre
  have htri : |signed s r - v| ≤ |signed s r - signed s m| + |signed s m - v| := by
    have := abs_add_le (signed s r - signed s m) (signed s m - v)
    rwa [sub_add_sub_cancel] at this
  rw [signed_sub, abs_sub_comm (signed s m)] at htri
  have hle := le_abs_self (m - (|v|))
  have hc1 : (0 : ℚ) < 2 ^ (-53 : ℤ) := zpow_pos (by norm_num) _
  have hc2 : (0 : ℚ) < 2 ^ (-106 : ℤ) := zpow_pos (by norm_num) _
  have hc3 : (2 : ℚ) ^ (-105 : ℤ) = 2 ^ (-106 : ℤ) * 2 := by rw [← zpow_add_one₀ (by norm_num)]; norm_num
  have hc4 : (2 : ℚ) ^ (-53 : ℤ) ≤ 1 := by norm_num
  have hc5 : m * (2 : ℚ) ^ (-53 : ℤ) ≤ (|v| + |v| * 2 ^ (-106 : ℤ)) * 2 ^ (-53 : ℤ) := mul_le_mul_of_nonneg_right (by linarith) hc1.le
  have hc6 : |v| * (2 : ℚ) ^ (-106 : ℤ) * 2 ^ (-53 : ℤ) ≤ |v| * 2 ^ (-106 : ℤ) * 1 :=
    mul_le_mul_of_nonneg_left hc4 (mul_nonneg (abs_nonneg _) hc2.le)
  have hherr : |v - signed s m| ≤ |v| * (2 : ℚ) ^ (-106 : ℤ) := herr
  rw [hc3]
  clear hmax hmlo hmov hhi hlo herr
  generalize (2 : ℚ) ^ (-53 : ℤ) = A at *
  generalize (2 : ℚ) ^ (-106 : ℤ) = B at *
  nlinarith

-- the hypotheses hold for `1 + 2^-200` and for the pair `1`, `2^-200`
theorem overflow_919 : double.overflowAt - 2 ^ (919 : ℤ) > 2 := by
  obtain ⟨d1, d2, d3, d4⟩ := double_facts
  unfold Format.overflowAt
  rw [d2, d3]
  have h1 : (2 : ℚ) ^ (2 : ℤ) ≤ 2 ^ (919 : ℤ) := zpow_le_zpow_right₀ (by norm_num) (by norm_num)
  have h2 : (2 : ℚ) ^ (1023 : ℤ) = 2 ^ 104 * 2 ^ (919 : ℤ) := by
    rw [← zpow_natCast, ← zpow_add₀ (by norm_num)]; norm_num
  rw [h2]
  clear h2
  generalize (2 : ℚ) ^ (919 : ℤ) = P at *
  norm_num at *
  linarith

example : (onePlus .toPositiveInf).WF ∧ (2 : ℚ) ^ (-969 : ℤ) ≤ (onePlus .toPositiveInf).mag ∧
    (onePlus .toPositiveInf).mag < double.overflowAt - 2 ^ (919 : ℤ) := by
  rw [onePlus_mag]
  have h1 : (2 : ℚ) ^ (-969 : ℤ) ≤ 1 := zpow_le_one_of_nonpos₀ (by norm_num) (by norm_num)
  have h2 : (2 : ℚ) ^ (-200 : ℤ) ≤ 1 := zpow_le_one_of_nonpos₀ (by norm_num) (by norm_num)
  have h3 : (0 : ℚ) < 2 ^ (-200 : ℤ) := zpow_pos (by norm_num) _
  have h4 := overflow_919
  generalize (2 : ℚ) ^ (-969 : ℤ) = A at *
  generalize (2 : ℚ) ^ (919 : ℤ) = B at *
  exact ⟨onePlus_wf _, by linarith, by linarith⟩
-- rounding up, the error is nearly one part in 2^105
example : ∃ y, newFromBig (onePlus .toPositiveInf) = .ok ((newFromBits 0x3FF0000000000000 0x3960000000000000, .exact), y) :=
  ⟨⟨106, .toNearestEven, .exact, .finite, false, 2 ^ 105 + 1, 1⟩, by decide +kernel⟩

end Float128ppc

/-! The bounds are nearly reached: `1 + 2^-10 - 2^-60` becomes the half 1. -/

/-- 1 + 2^-10 - 2^-60 -/
def belowNext : BigFloat := ⟨61, .toNearestEven, .exact, .finite, false, 2 ^ 60 + 2 ^ 50 - 1, 1⟩

example : belowNext.WF := ⟨by decide, by decide, by decide, by decide, by decide, fun _ => ⟨2 ^ 60 + 2 ^ 50 - 1, 0, by decide, by decide⟩⟩
example : Binary16.newFromBig belowNext = .ok (⟨0x3C00⟩, .below) := by decide +kernel
-- a double half way between two halves: `1 + 2^-11`
example : Binary16.newFromFloat64 0x3FF0020000000000 = .ok (⟨0x3C00⟩, .exact) := by decide +kernel
example : double.decode (0x3FF0020000000000 : F64).toNat = .num false (1 + 2 ^ (-11 : ℤ)) := by
  show double.decode 0x3FF0020000000000 = _
  norm_num [Format.decode, double, Format.bias]

end GoFloat
