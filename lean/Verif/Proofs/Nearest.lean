import Verif.Proofs.ToIEEE
/-
`toIEEE` rounds correctly and reports the true accuracy; representable numbers are converted exactly.
-/
namespace GoFloat
open Spec

theorem Spec.Format.magc_lt_succ (F : Format) (n : ℕ) : F.magc n < F.magc (n + 1) := by
  obtain ⟨k, N, hn, hN1, hN2⟩ := F.code_split n
  have h1 := F.magc_eq (k := k) (N := N) hN1.le hN2
  have h2 := F.magc_eq (k := k) (N := N + 1) hN1 (by omega)
  rw [hn, h1, show k * 2 ^ F.t + N + 1 = k * 2 ^ F.t + (N + 1) by ring, h2]
  have : (0 : ℚ) < 2 ^ (F.qmin + k) := by positivity
  push_cast
  linarith

theorem Spec.Format.magc_strictMono (F : Format) : StrictMono F.magc :=
  strictMono_nat_of_lt_succ F.magc_lt_succ

theorem accOf_true (neg : Bool) (r m : ℚ) :
    AccuracyTrue (BigFloat.accOf neg r m) (.num neg r) (.num neg m) := by
  unfold BigFloat.accOf
  refine ⟨_, _, rfl, rfl, ?_⟩
  rcases lt_trichotomy r m with h | h | h
  · rw [if_neg h.ne, if_pos h]
    cases neg <;> simp [makeAcc, keyLt, signed, h]
  · rw [if_pos h, h]
  · rw [if_neg h.ne', if_neg h.not_gt]
    cases neg <;> simp [makeAcc, keyLt, signed, h]

theorem rhe_ge_of_even {v : ℚ} {M : ℤ} (hM : M % 2 = 0) (h : (M : ℚ) - 1 / 2 ≤ v) : M ≤ rhe v := by
  have h1 := abs_le.1 (abs_sub_rhe_le_half v)
  by_contra hc
  push Not at hc
  have h2 : ((rhe v : ℤ) : ℚ) ≤ M - 1 := by exact_mod_cast Int.le_sub_one_of_lt hc
  have h3 : ((rhe v : ℤ) : ℚ) = M - 1 := by linarith
  have h4 : rhe v = M - 1 := by exact_mod_cast h3
  have hv : v = M - 1 / 2 := by linarith
  have := rhe_even_of_tie (v := v) (n := M) (by omega) (by
    rw [h3, hv, abs_of_nonneg (by linarith), abs_of_nonpos (by linarith)]; ring)
  omega

theorem rhe_lt_of {v : ℚ} {M : ℤ} (h : v < (M : ℚ) - 1 / 2) : rhe v < M := by
  have h1 := abs_le.1 (abs_sub_rhe_le_half v)
  have : ((rhe v : ℤ) : ℚ) < M := by linarith
  exact_mod_cast this

/-- The bounds of the binade of `x` used by `nearest_code`. -/
theorem binade_bounds (F : Format) {x : BigFloat} (hm : 0 < x.mant) {k : ℕ}
    (hk : (k : ℤ) = max (x.exp - 1) (1 - F.bias) - (1 - F.bias)) :
    (k = 0 ∨ (2 : ℚ) ^ F.t * 2 ^ (F.qmin + k) ≤ x.mag) ∧
    x.mag ≤ (2 : ℚ) ^ (F.t + 1) * 2 ^ (F.qmin + k) := by
  have hqm : F.qmin = 1 - F.bias - F.t := rfl
  constructor
  · by_cases h : k = 0
    · exact Or.inl h
    · right
      refine le_trans (le_of_eq ?_) (BigFloat.le_mag hm)
      rw [← zpow_natCast, ← zpow_add₀ (by norm_num)]
      congr 1; omega
  · refine (BigFloat.mag_lt x).le.trans ?_
    rw [← zpow_natCast, ← zpow_add₀ (by norm_num)]
    apply zpow_le_zpow_right₀ (by norm_num)
    push_cast; omega

/-- The infinity is reached exactly at the overflow threshold. -/
theorem overflow_iff (F : Format) (hw2 : 2 ≤ F.w) {x : BigFloat} (hm : 0 < x.mant) {k N : ℕ}
    (hk : (k : ℤ) = max (x.exp - 1) (1 - F.bias) - (1 - F.bias))
    (hN : (N : ℤ) = rhe (x.mag / 2 ^ (F.qmin + k))) :
    F.infCode ≤ k * 2 ^ F.t + N ↔ F.overflowAt ≤ x.mag := by
  have hb1 := bias_pos F hw2
  have hPw := two_pow_w F (by omega)
  have hPt := Nat.two_pow_pos F.t
  have hqm : F.qmin = 1 - F.bias - F.t := rfl
  have hif : F.infCode = (2 ^ F.w - 1) * 2 ^ F.t := rfl
  obtain ⟨hlo, hhi⟩ := binade_bounds F hm hk
  obtain ⟨hN1, hN2, -, -⟩ := nearest_code F hlo hhi hN
  rw [pow_succ] at hN1
  have hov : F.overflowAt = (2 : ℚ) ^ F.bias * (2 - 1 / 2 ^ (F.t + 1)) := rfl
  have hb0 : (0 : ℚ) < 2 ^ F.bias := by positivity
  have hinv : (0 : ℚ) < 1 / 2 ^ (F.t + 1) := by positivity
  have hinv1 : (1 : ℚ) / 2 ^ (F.t + 1) ≤ 1 := by
    rw [div_le_one (by positivity)]; exact one_le_pow₀ (by norm_num)
  rcases lt_trichotomy (x.exp - 1) F.bias with h | h | h
  · have h1 : k * 2 ^ F.t + N < F.infCode := by
      have : k + 3 ≤ 2 ^ F.w - 1 := by omega
      calc k * 2 ^ F.t + N < (k + 3) * 2 ^ F.t := by rw [Nat.add_mul]; omega
        _ ≤ F.infCode := by rw [hif]; exact Nat.mul_le_mul_right _ this
    have h2 : x.mag < F.overflowAt := by
      calc x.mag < 2 ^ x.exp := BigFloat.mag_lt x
        _ ≤ 2 ^ F.bias := zpow_le_zpow_right₀ (by norm_num) (by omega)
        _ ≤ F.overflowAt := by rw [hov]; nlinarith
    exact ⟨fun a => absurd a (by omega), fun a => absurd a (not_le.2 h2)⟩
  · have hkv : (k : ℤ) = 2 * F.bias - 1 := by omega
    have hk2 : 2 ^ F.w - 1 = k + 2 := by omega
    have hQ0 : (0 : ℚ) < 2 ^ (F.qmin + k) := by positivity
    have hb : (2 : ℚ) ^ F.bias = 2 ^ F.t * 2 ^ (F.qmin + k) := by
      rw [← zpow_natCast, ← zpow_add₀ (by norm_num)]; congr 1; omega
    have hov2 : F.overflowAt = (((2 ^ (F.t + 1) : ℕ) : ℤ) - 1 / 2 : ℚ) * 2 ^ (F.qmin + k) := by
      rw [hov, hb]; push_cast; rw [pow_succ]; field_simp
    have h1 : F.infCode ≤ k * 2 ^ F.t + N ↔ ((2 ^ (F.t + 1) : ℕ) : ℤ) ≤ N := by
      rw [hif, hk2, Nat.add_mul, pow_succ]
      constructor
      · intro a; have : 2 ^ F.t * 2 ≤ N := by omega
        exact_mod_cast this
      · intro a; have : 2 ^ F.t * 2 ≤ N := by exact_mod_cast a
        omega
    rw [h1, hN, hov2, ← le_div_iff₀ hQ0]
    constructor
    · intro a
      by_contra hc
      push Not at hc
      exact absurd a (not_le.2 (rhe_lt_of hc))
    · intro a
      apply rhe_ge_of_even _ a
      rw [pow_succ]; omega
  · have h1 : F.infCode ≤ k * 2 ^ F.t + N := by
      have hk2 : 2 ^ F.w - 1 ≤ k + 1 := by omega
      have hk0 : k ≠ 0 := by omega
      have := hN2.resolve_left hk0
      rw [hif]
      calc (2 ^ F.w - 1) * 2 ^ F.t ≤ (k + 1) * 2 ^ F.t := Nat.mul_le_mul_right _ hk2
        _ ≤ _ := by rw [Nat.add_mul]; omega
    have h2 : F.overflowAt ≤ x.mag := by
      calc F.overflowAt ≤ 2 ^ F.bias * 2 := by rw [hov]; nlinarith
        _ = 2 ^ (F.bias + 1) := by rw [zpow_add_one₀ (by norm_num)]
        _ ≤ 2 ^ (x.exp - 1) := zpow_le_zpow_right₀ (by norm_num) (by omega)
        _ ≤ x.mag := BigFloat.le_mag hm
    exact ⟨fun _ => h2, fun _ => h1⟩

/-- `magc` candidates satisfy the specification of rounding. -/
theorem roundsTo_of_nearest (F : Format) (ht : 1 ≤ F.t) (neg : Bool) {m : ℚ} (hm0 : 0 ≤ m) {k N : ℕ}
    (hlt : k * 2 ^ F.t + N < F.infCode) (hov : ¬ F.overflowAt ≤ m)
    (hN1 : N ≤ 2 ^ (F.t + 1)) (hN2 : k = 0 ∨ 2 ^ F.t ≤ N)
    (hnear : ∀ n', |m - N * (2 : ℚ) ^ (F.qmin + k)| ≤ |m - F.magc n'|)
    (htie : ∀ n', F.magc n' ≠ N * (2 : ℚ) ^ (F.qmin + k) →
      |m - N * (2 : ℚ) ^ (F.qmin + k)| = |m - F.magc n'| → N % 2 = 0) :
    F.RoundsTo neg m (F.signPart neg + (k * 2 ^ F.t + N)) := by
  unfold Format.RoundsTo
  rw [if_neg hov]
  set r : ℚ := N * (2 : ℚ) ^ (F.qmin + k) with hr
  have hr0 : 0 ≤ r := by positivity
  have hmagc0 : F.magc 0 = 0 := by unfold Format.magc; simp
  have hsame : ∀ a b : ℚ, |signed neg a - signed neg b| = |a - b| := by
    intro a b; cases neg
    · rfl
    · simp only [signed, if_true]
      rw [show -a - -b = -(a - b) by ring, abs_neg]
  have hopp : ∀ (s : Bool) (b : ℚ), s ≠ neg → 0 ≤ b → |signed neg m - signed s b| = m + b := by
    intro s b hs hb
    cases neg <;> cases s <;> simp_all [signed]
    · exact add_nonneg hm0 hb
    · rw [← neg_add', abs_neg, abs_of_nonneg (add_nonneg hm0 hb)]
  refine ⟨r, ?_, ?_, ?_⟩
  · rw [F.decode_code neg hlt, F.magc_eq hN1 hN2]
  · intro c' s r' hc'
    obtain ⟨n', -, hr', -, -⟩ := F.code_of_decode hc'
    have hr'0 : 0 ≤ r' := by rw [hr']; exact F.magc_nonneg n'
    rw [hsame]
    by_cases hs : s = neg
    · subst hs; rw [hsame, hr']; exact hnear n'
    · rw [hopp s r' hs hr'0]
      have h0 := hnear 0
      rw [hmagc0, sub_zero, abs_of_nonneg hm0] at h0
      linarith
  · intro c' s r' hc' hne heq
    obtain ⟨n', -, hr', -, -⟩ := F.code_of_decode hc'
    have hr'0 : 0 ≤ r' := by rw [hr']; exact F.magc_nonneg n'
    have hNe : N % 2 = 0 := by
      rw [hsame] at heq
      by_cases hs : s = neg
      · subst hs
        rw [hsame, hr'] at heq
        exact htie n' (fun h => hne (by rw [hr', h])) heq
      · rw [hopp s r' hs hr'0] at heq
        have h0 := hnear 0
        rw [hmagc0, sub_zero, abs_of_nonneg hm0] at h0
        have hr'z : r' = 0 := by linarith
        have hrne : r ≠ 0 := by
          intro h; apply hne; rw [hr'z, h]; cases s <;> cases neg <;> simp [signed]
        apply htie 0 (by rw [hmagc0]; exact hrne.symm)
        rw [hmagc0, sub_zero, abs_of_nonneg hm0, heq, hr'z, add_zero]
    obtain ⟨u, hu⟩ : ∃ u, F.t = u + 1 := ⟨F.t - 1, by omega⟩
    have h1 : k * 2 ^ F.t % 2 = 0 := by rw [hu, pow_succ, ← Nat.mul_assoc, Nat.mul_mod_left]
    have h2 : F.signPart neg % 2 = 0 := by
      unfold Format.signPart
      split
      · rw [hu, show u + 1 + F.w = (u + F.w) + 1 by ring, pow_succ, Nat.mul_mod_left]
      · rfl
    omega

theorem toIEEE_finite_spec (F : Format) (ht : 1 ≤ F.t) (hw2 : 2 ≤ F.w) (hw30 : F.w ≤ 30) {x : BigFloat}
    (hx : x.WF) (hf : x.form = .finite) :
    F.RoundsTo x.neg x.mag (x.toIEEE F.t F.w).1 ∧
    AccuracyTrue (x.toIEEE F.t F.w).2 (F.decode (x.toIEEE F.t F.w).1) (.num x.neg x.mag) := by
  have hm := hx.mant_pos hf
  obtain ⟨k, N, hk, hN, heq⟩ := toIEEE_formula F hw2 hw30 hx hf
  have hoi := overflow_iff F hw2 hm hk hN
  obtain ⟨hlo, hhi⟩ := binade_bounds F hm hk
  obtain ⟨hN1, hN2, hnear, htie⟩ := nearest_code F hlo hhi hN
  rw [heq]
  by_cases hov : F.infCode ≤ k * 2 ^ F.t + N
  · rw [if_pos hov]
    refine ⟨?_, ?_⟩
    · unfold Format.RoundsTo
      rw [if_pos (hoi.1 hov)]; exact F.decode_inf x.neg
    · rw [F.decode_inf]
      refine ⟨_, _, rfl, rfl, ?_⟩
      cases x.neg <;> simp [makeAcc, keyLt]
  · rw [if_neg hov]
    refine ⟨?_, ?_⟩
    · exact roundsTo_of_nearest F ht x.neg (BigFloat.mag_pos hm).le (by omega) (fun h => hov (hoi.2 h)) hN1 hN2
        hnear htie
    · rw [F.decode_code _ (by omega), F.magc_eq hN1 hN2]
      exact accOf_true _ _ _

/-- `toIEEE` returns a code of the right width. -/
theorem toIEEE_lt (F : Format) (hw2 : 2 ≤ F.w) (hw30 : F.w ≤ 30) {x : BigFloat} (hx : x.WF) :
    (x.toIEEE F.t F.w).1 < 2 ^ (F.t + F.w + 1) := by
  have hi := F.infCode_lt
  have hs : F.signPart x.neg ≤ 2 ^ (F.t + F.w) := by unfold Format.signPart; split <;> omega
  have key : ∀ n, n ≤ F.infCode → F.signPart x.neg + n < 2 ^ (F.t + F.w + 1) := by
    intro n hn; rw [pow_succ]; omega
  cases hf : x.form with
  | zero =>
    have : x.toIEEE F.t F.w = (F.signPart x.neg, .exact) := by unfold BigFloat.toIEEE; rw [hf]; rfl
    rw [this]; exact key 0 (Nat.zero_le _)
  | inf =>
    have : x.toIEEE F.t F.w = (F.signPart x.neg + F.infCode, .exact) := by unfold BigFloat.toIEEE; rw [hf]; rfl
    rw [this]; exact key _ (le_refl _)
  | finite =>
    obtain ⟨k, N, hk, hN, heq⟩ := toIEEE_formula F hw2 hw30 hx hf
    rw [heq]
    split
    · exact key _ (le_refl _)
    · exact key _ (by omega)

theorem toIEEE_zero (F : Format) {x : BigFloat} (hf : x.form = .zero) :
    x.toIEEE F.t F.w = (F.signPart x.neg, .exact) := by unfold BigFloat.toIEEE; rw [hf]; rfl

theorem toIEEE_inf (F : Format) {x : BigFloat} (hf : x.form = .inf) :
    x.toIEEE F.t F.w = (F.signPart x.neg + F.infCode, .exact) := by unfold BigFloat.toIEEE; rw [hf]; rfl

/-- A number of the format is converted exactly. -/
theorem toIEEE_of_magc (F : Format) (hw2 : 2 ≤ F.w) (hw30 : F.w ≤ 30) {x : BigFloat}
    (hx : x.WF) (hf : x.form = .finite) {n : ℕ} (hn : n < F.infCode) (hmag : x.mag = F.magc n) :
    x.toIEEE F.t F.w = (F.signPart x.neg + n, .exact) := by
  have hm := hx.mant_pos hf
  obtain ⟨k, N, hk, hN, heq⟩ := toIEEE_formula F hw2 hw30 hx hf
  obtain ⟨hlo, hhi⟩ := binade_bounds F hm hk
  obtain ⟨hN1, hN2, hnear, -⟩ := nearest_code F hlo hhi hN
  have h0 := hnear n
  rw [← hmag, sub_self, abs_zero] at h0
  have h1 : N * (2 : ℚ) ^ (F.qmin + k) = x.mag := by
    have := abs_nonpos_iff.1 h0; linarith
  have h2 : k * 2 ^ F.t + N = n := by
    apply F.magc_strictMono.injective
    rw [F.magc_eq hN1 hN2, h1, hmag]
  rw [heq, h2, if_neg (by omega), h1]
  simp [BigFloat.accOf]

end GoFloat
