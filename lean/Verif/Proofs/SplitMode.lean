import Verif.Proofs.RoundMode
import Verif.Proofs.Float128ppc
import Mathlib.Algebra.Order.Archimedean.Basic
/-
`float128ppc.NewFromBig` for arguments in every rounding mode.
-/
namespace GoFloat
open Spec

theorem roundsToBitsIn_self {mode : RoundingMode} {p : ℕ} {v : ℚ} (h : ∃ k e : ℤ, |k| < 2 ^ p ∧ v = k * (2 : ℚ) ^ e) :
    RoundsToBitsIn mode p v v := by
  refine ⟨h, ?_⟩
  cases mode <;> simp only
  · refine ⟨h, fun k e _ => by rw [sub_self, abs_zero]; exact abs_nonneg _, fun k e _ hne heq => ?_⟩
    rw [sub_self, abs_zero] at heq
    exact absurd (sub_eq_zero.1 (abs_eq_zero.1 heq.symm)).symm hne
  · intro k e _
    rw [sub_self, abs_zero]
    exact ⟨abs_nonneg _, fun heq => by rw [← sub_eq_zero.1 (abs_eq_zero.1 heq.symm)]⟩
  · exact ⟨mul_self_nonneg _, le_rfl, fun _ _ _ h => h⟩
  · exact ⟨mul_self_nonneg _, le_rfl, fun _ _ _ h => h⟩
  · exact ⟨le_rfl, fun _ _ _ h => h⟩
  · exact ⟨le_rfl, fun _ _ _ h => h⟩

theorem RoundsToBits.unique {p : ℕ} (hp : 1 ≤ p) {v r r' : ℚ} (hv : v ≠ 0) (h : RoundsToBits p v r) (h' : RoundsToBits p v r') : r = r' := by
  obtain ⟨⟨k, e, hk, hr⟩, hmin, heven⟩ := h
  obtain ⟨⟨k', e', hk', hr'⟩, hmin', heven'⟩ := h'
  by_contra hne
  have heq : |v - r| = |v - r'| := le_antisymm (by rw [hr']; exact hmin k' e' hk') (by rw [hr]; exact hmin' k e hk)
  obtain ⟨i, hi1, hi2⟩ := exists_mem_Ico_zpow (abs_pos.2 hv) (by norm_num : (1 : ℚ) < 2)
  have hb1 : (2 : ℚ) ^ (p - 1) * 2 ^ (i - ((p - 1 : ℕ) : ℤ)) ≤ |v| := by
    rw [← zpow_natCast, ← zpow_add₀ (by norm_num)]; rwa [show ((p - 1 : ℕ) : ℤ) + (i - ((p - 1 : ℕ) : ℤ)) = i by ring]
  have hb2 : |v| < (2 : ℚ) ^ p * 2 ^ (i - ((p - 1 : ℕ) : ℤ)) := by
    rw [← zpow_natCast, ← zpow_add₀ (by norm_num)]; rwa [show (p : ℤ) + (i - ((p - 1 : ℕ) : ℤ)) = i + 1 by omega]
  set j := i - ((p - 1 : ℕ) : ℤ)
  have hu : (0 : ℚ) < 2 ^ j := by positivity
  obtain ⟨m, hm⟩ := heven k' e' hk' (by rw [← hr']; exact fun h => hne h.symm) (by rw [← hr']; exact heq) j hb1 hb2
  obtain ⟨m', hm'⟩ := heven' k e hk (by rw [← hr]; exact hne) (by rw [← hr]; exact heq.symm) j hb1 hb2
  have hvm : v = ((m + m' : ℤ) : ℚ) * 2 ^ j := by
    rcases abs_eq_abs.1 heq with h | h
    · exact absurd (sub_right_injective h) hne
    · push_cast
      have : v = (r + r') / 2 := by linarith
      rw [this, hm, hm']; ring
  have hlt : |m + m'| < 2 ^ p := by
    rw [hvm, abs_mul, abs_of_pos hu] at hb2
    have := lt_of_mul_lt_mul_right hb2 hu.le
    exact_mod_cast this
  have h0 := hmin (m + m') j hlt
  rw [← hvm, sub_self, abs_zero, abs_nonpos_iff, sub_eq_zero] at h0
  have h0' := hmin' (m + m') j hlt
  rw [← hvm, sub_self, abs_zero, abs_nonpos_iff, sub_eq_zero] at h0'
  exact hne (h0 ▸ h0')

/-- A number other than zero rounds to one number only. -/
theorem RoundsToBitsIn.unique {mode : RoundingMode} {p : ℕ} (hp : 1 ≤ p) {v r r' : ℚ} (hv : v ≠ 0)
    (h : RoundsToBitsIn mode p v r) (h' : RoundsToBitsIn mode p v r') : r = r' := by
  obtain ⟨⟨k, e, hk, hr⟩, h1⟩ := h
  obtain ⟨⟨k', e', hk', hr'⟩, h2⟩ := h'
  have side : 0 ≤ r * v → 0 ≤ r' * v → |r| = |r'| → r = r' := by
    intro a b c
    rcases abs_eq_abs.1 c with h | h
    · exact h
    · have : r' * v = 0 := by rw [h] at a; linarith
      rcases mul_eq_zero.1 this with h3 | h3
      · rw [h, h3, neg_zero]
      · exact absurd h3 hv
  cases mode <;> simp only at h1 h2
  · exact RoundsToBits.unique hp hv h1 h2
  · obtain ⟨a1, a2⟩ := h1 k' e' hk'
    obtain ⟨b1, b2⟩ := h2 k e hk
    rw [← hr'] at a1 a2
    rw [← hr] at b1 b2
    have hd := le_antisymm a1 b1
    rcases abs_eq_abs.1 (le_antisymm (b2 hd.symm) (a2 hd)) with h | h
    · exact h
    · rw [h] at hd
      rcases abs_eq_abs.1 hd with h3 | h3
      · linarith
      · exact absurd (by linarith) hv
  · obtain ⟨a1, a2, a3⟩ := h1
    obtain ⟨b1, b2, b3⟩ := h2
    exact side a1 b1 (le_antisymm (by rw [hr]; exact b3 k e hk (hr ▸ a2)) (by rw [hr']; exact a3 k' e' hk' (hr' ▸ b2)))
  · obtain ⟨a1, a2, a3⟩ := h1
    obtain ⟨b1, b2, b3⟩ := h2
    exact side a1 b1 (le_antisymm (by rw [hr']; exact a3 k' e' hk' (hr' ▸ b2)) (by rw [hr]; exact b3 k e hk (hr ▸ a2)))
  · obtain ⟨a2, a3⟩ := h1
    obtain ⟨b2, b3⟩ := h2
    exact le_antisymm (by rw [hr]; exact b3 k e hk (hr ▸ a2)) (by rw [hr']; exact a3 k' e' hk' (hr' ▸ b2))
  · obtain ⟨a2, a3⟩ := h1
    obtain ⟨b2, b3⟩ := h2
    exact le_antisymm (by rw [hr']; exact a3 k' e' hk' (hr' ▸ b2)) (by rw [hr]; exact b3 k e hk (hr ▸ a2))

namespace Float128ppc

/-- Rounding to 106 bits, in the mode of the argument. -/
theorem prepared_mode {x : BigFloat} (hx : x.WF) (hf : x.form = .finite) :
    ∃ m : ℚ, 0 ≤ m ∧ RoundsToBitsIn x.mode 106 x.sval (signed x.neg m) ∧ x.mag - 2 ^ (x.exp - 106) ≤ m ∧
      ((prepared x).form = .finite ∧ (prepared x).mag = m ∨ (prepared x).form = .inf ∧ x.exp = BigFloat.MaxExp) := by
  have hm := hx.mant_pos hf
  have hmag := BigFloat.mag_pos hm
  by_cases hp : x.prec ≤ 106
  · refine ⟨x.mag, hmag.le, ?_, by have : (0 : ℚ) < 2 ^ (x.exp - 106) := by positivity
                                   linarith, Or.inl ?_⟩
    · rw [← BigFloat.sval_finite hf]
      refine roundsToBitsIn_self ?_
      rw [BigFloat.sval_finite hf]
      obtain ⟨K, hK, hK2⟩ := sval_multiple hx hf (p := 106) hp
      cases x.neg
      · exact ⟨K, x.exp - 106, by rw [abs_of_nonneg (by positivity)]; exact_mod_cast hK2, hK⟩
      · refine ⟨-K, x.exp - 106, by rw [abs_neg, abs_of_nonneg (by positivity)]; exact_mod_cast hK2, ?_⟩
        simp only [signed, if_true]
        rw [hK]; push_cast; ring
    · unfold prepared precision
      rw [BigFloat.setPrec_widen (by norm_num) (by decide) hp]
      exact ⟨hf, rfl⟩
  · obtain ⟨q, N, r, h1, h2, h3, h4, h5, h6, h7⟩ := BigFloat.round_step (z := { x with prec := 106 }) hf hm (by norm_num)
    have hpr : prepared x = { BigFloat.round { x with prec := 106 } with mode := .toNearestEven, acc := .exact } := by
      unfold prepared BigFloat.setPrec precision BigFloat.setMode
      rw [if_neg (by norm_num)]
      simp only [show min 106 BigFloat.MaxPrec = 106 by decide]
      rw [if_pos (by omega)]
    have hmx : ({ x with prec := 106 } : BigFloat).mag = x.mag := rfl
    rw [hmx] at h5
    simp only at h1 h2 h5 h6 h7
    have hmm : ∀ z : BigFloat, ({ z with mode := .toNearestEven, acc := .exact } : BigFloat).mag = z.mag := fun z => rfl
    have hu : (0 : ℚ) < 2 ^ (x.exp - ((106 : ℕ) : ℤ)) := by positivity
    refine ⟨N * (2 : ℚ) ^ (x.exp - ((106 : ℕ) : ℤ)), by positivity, ?_, ?_, ?_⟩
    · rw [BigFloat.sval_finite hf, h5]
      exact step_spec (by norm_num) h1 h2 h3 h4 h6
    · rw [h5]
      have : (q : ℚ) ≤ N := by
        rcases h6.1 with h | h <;> rw [h]
        push_cast; linarith
      push_cast at hu ⊢
      nlinarith
    · rcases h7 with ⟨f, g⟩ | ⟨f, g⟩
      · exact Or.inl ⟨by rw [hpr]; exact f, by rw [hpr, hmm]; exact g⟩
      · exact Or.inr ⟨by rw [hpr]; exact f, le_antisymm (hx.exp_le hf) g⟩

/-- What `NewFromBig` does with a finite argument in any rounding mode. -/
theorem newFromBig_mode {x : BigFloat} (hx : x.WF) (hf : x.form = .finite) : ∃ v : ℚ, RoundsToBitsIn x.mode 106 x.sval v ∧
    (double.overflowAt ≤ |v| → newFromBig x = .error .errNaN) ∧
    (|v| < double.overflowAt → ∃ (high low : F64) (rh : ℚ) (x' : BigFloat),
      newFromBig x = .ok ((⟨high, low⟩, .exact), x') ∧ x'.form = .finite ∧ x'.sval = v ∧
      double.decode high.toNat = .num x.neg rh ∧ signed x.neg |v| = v ∧ double.RoundsTo x.neg |v| high.toNat ∧
      (v - signed x.neg rh = 0 → low = 0) ∧
      (v - signed x.neg rh ≠ 0 → double.RoundsTo (decide (v - signed x.neg rh < 0)) |v - signed x.neg rh| low.toNat) ∧
      (2 ^ (-969 : ℤ) ≤ x.mag → (∃ s m, double.decode low.toNat = .num s m ∧ signed s m = v - signed x.neg rh) ∧
        ∀ e : ℤ, rh < 2 ^ (e + 1) → |v - signed x.neg rh| ≤ 2 ^ (e - 53))) := by
  obtain ⟨m, hm0, hm1, hm2, hm3⟩ := prepared_mode hx hf
  obtain ⟨p1, p2, p3, p4⟩ := prepared_any hx hf
  have habs : |signed x.neg m| = m := BigFloat.signed_abs hm0
  refine ⟨signed x.neg m, hm1, ?_, ?_⟩
  · rw [habs]
    intro h
    refine newFromBig_panic hx hf ?_
    rcases hm3 with ⟨f, g⟩ | ⟨f, -⟩
    · exact Or.inr ⟨f, by rw [g]; exact h⟩
    · exact Or.inl f
  · rw [habs]
    intro h
    rcases hm3 with ⟨hpf, g⟩ | ⟨f, hexp⟩
    swap
    · exfalso
      have h1 := (exp_max hx hf (by omega)).1
      have h2 := BigFloat.le_mag (hx.mant_pos hf)
      rw [hexp] at h2 hm2
      -- the number is at least two units above the threshold
      have h3 : (2 : ℚ) ^ (BigFloat.MaxExp - 106) ≤ 2 ^ (BigFloat.MaxExp - 1) / 2 := by
        rw [show BigFloat.MaxExp - 106 = BigFloat.MaxExp - 1 - 1 - 104 by ring, zpow_sub₀ (by norm_num) _ 104,
          zpow_sub_one₀ (by norm_num : (2:ℚ) ≠ 0) (BigFloat.MaxExp - 1)]
        have h0 : (0 : ℚ) < 2 ^ (BigFloat.MaxExp - 1) := by positivity
        have h104 : (1 : ℚ) ≤ 2 ^ (104 : ℤ) := by norm_num
        rw [div_le_iff₀ (by positivity)]
        generalize (2 : ℚ) ^ (104 : ℤ) = A at *
        generalize (2 : ℚ) ^ (BigFloat.MaxExp - 1) = B at *
        clear h1 hm2 h
        nlinarith
      have h4 : (2 : ℚ) ^ (BigFloat.MaxExp - 1) / 2 = 2 ^ (BigFloat.MaxExp - 2) := by
        rw [show BigFloat.MaxExp - 2 = BigFloat.MaxExp - 1 - 1 by ring, zpow_sub_one₀ (by norm_num : (2:ℚ) ≠ 0) (BigFloat.MaxExp - 1)]
        rfl
      have h5 : (2 : ℚ) ^ (1024 : ℤ) ≤ 2 ^ (BigFloat.MaxExp - 2) := zpow_le_zpow_right₀ (by norm_num) (by decide)
      have h6 : double.overflowAt ≤ 2 ^ (1024 : ℤ) := by
        unfold Format.overflowAt
        obtain ⟨d1, d2, d3, d4⟩ := double_facts
        rw [d2, d3, show (1024 : ℤ) = 1023 + 1 by norm_num, zpow_add_one₀ (by norm_num)]
        have hP : (0 : ℚ) < 2 ^ (1023 : ℤ) := zpow_pos (by norm_num) _
        generalize (2 : ℚ) ^ (1023 : ℤ) = P at hP ⊢
        have : (0 : ℚ) < 1 / 2 ^ (52 + 1) := by positivity
        nlinarith
      rw [h4] at h3
      have h7 : (2 : ℚ) ^ (BigFloat.MaxExp - 1) = 2 * 2 ^ (BigFloat.MaxExp - 2) := by rw [← h4]; ring
      generalize (2 : ℚ) ^ (BigFloat.MaxExp - 1) = A at *
      generalize (2 : ℚ) ^ (BigFloat.MaxExp - 2) = B at *
      generalize (2 : ℚ) ^ (BigFloat.MaxExp - 106) = C at *
      generalize (2 : ℚ) ^ (1024 : ℤ) = D at *
      linarith
    have hw : (prepared x).WF := by
      rcases p4 with ⟨-, w, -⟩ | ⟨f, -⟩
      · exact w
      · rw [f] at hpf; exact absurd hpf (by decide)
    obtain ⟨high, low, rh, s1, s2, s3, s4, s5, s6, s7⟩ := split_spec hw hpf p2 (by rw [g]; exact not_le.2 h)
    have hsv : (prepared x).sval = signed (prepared x).neg (prepared x).mag := BigFloat.sval_finite hpf
    rw [p1] at s2 s3 s4 s5 s6 s7 hsv
    rw [g] at s3 hsv
    rw [hsv] at s4 s5 s6 s7
    refine ⟨high, low, rh, prepared x, by rw [newFromBig_finite_eq hf]; exact s1, hpf, hsv, s2, rfl, s3, s4, s5, ?_⟩
    intro hbig
    have hxe : -969 < x.exp := BigFloat.exp_gt_of_mag hbig
    have hpe : -968 ≤ (prepared x).exp := by
      rcases p4 with ⟨-, -, -, e | e⟩ | ⟨f, -⟩
      · omega
      · omega
      · rw [f] at hpf; exact absurd hpf (by decide)
    obtain ⟨q1, q2⟩ := s7 (by omega)
    refine ⟨s6 hpe, ?_⟩
    intro e hlt
    have : (prepared x).exp - 1 < e + 1 := by
      by_contra hc
      push Not at hc
      have := zpow_le_zpow_right₀ (a := (2 : ℚ)) (by norm_num) hc
      linarith
    exact q1.trans (zpow_le_zpow_right₀ (by norm_num) (by omega))

end Float128ppc
end GoFloat
