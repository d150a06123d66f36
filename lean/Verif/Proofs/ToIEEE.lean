import Verif.Proofs.IEEE
/-
Correctness of `toIEEE` (the model of `big.Float.Float32/Float64`).
-/
namespace GoFloat
open Spec

namespace BigFloat

/-- Copying into a variable of precision `p` in mode ToNearestEven rounds to nearest even. -/
theorem set_nearest {x : BigFloat} (hw : x.WF) (hf : x.form = .finite) {z : BigFloat} (hp : 1 ≤ z.prec)
    (hmode : z.mode = .toNearestEven) :
    let r := set z x
    let q : ℤ := x.exp - z.prec
    let N : ℤ := rhe (x.mag / (2 : ℚ) ^ q)
    r.neg = x.neg ∧ r.prec = z.prec ∧ r.mode = z.mode ∧
    r.acc = accOf x.neg (N * (2 : ℚ) ^ q) x.mag ∧
    ((r.form = .finite ∧ 0 < r.mant ∧ r.mag = N * (2 : ℚ) ^ q ∧
      (r.exp = x.exp ∧ N < 2 ^ z.prec ∨ r.exp = x.exp + 1 ∧ N = 2 ^ z.prec ∧ x.exp < MaxExp) ∧
      ∃ k j, r.mant = k * 2 ^ j ∧ k < 2 ^ z.prec) ∨
     (r.form = .inf ∧ N = 2 ^ z.prec ∧ MaxExp ≤ x.exp)) := by
  intro r q N
  have hm := hw.mant_pos hf
  set z1 : BigFloat := { z with acc := .exact, form := x.form, neg := x.neg, mant := x.mant, exp := x.exp } with hz1
  have hmagz : z1.mag = x.mag := rfl
  have hr : r = if z.prec < x.prec then round z1 else z1 := by
    simp only [r, set, hf, if_true, hz1]
    rw [if_neg (by omega)]
  by_cases hlt : z.prec < x.prec
  · rw [if_pos hlt] at hr
    have := round_nearest (z := z1) (by simpa [hz1] using hf) hm hp hmode
    rw [hmagz] at this
    rw [hr]; exact this
  · rw [if_neg hlt] at hr
    push Not at hlt
    obtain ⟨k, j, hk, hkp⟩ := hw.fits hf
    have hk0 : 0 < k := by
      rcases Nat.eq_zero_or_pos k with h | h
      · rw [h] at hk; omega
      · exact h
    have hbk : bitLen k ≤ z.prec := (bitLen_le_of_lt hkp).trans hlt
    obtain ⟨d, hd⟩ : ∃ d, z.prec = bitLen k + d := ⟨z.prec - bitLen k, by omega⟩
    have hmag : x.mag / (2 : ℚ) ^ q = ((k * 2 ^ d : ℕ) : ℚ) := by
      rw [mag_eq, hk, bitLen_mul_two_pow hk0]
      push_cast
      rw [mul_assoc, ← zpow_natCast, ← zpow_add₀ (by norm_num), mul_div_assoc, ← zpow_sub₀ (by norm_num)]
      have : (j : ℤ) + (x.exp - (bitLen k + j)) - q = (d : ℤ) := by simp only [q]; push_cast [hd]; ring
      rw [this, zpow_natCast]
    have hq0 : (0 : ℚ) < (2 : ℚ) ^ q := by positivity
    have hN : N = ((k * 2 ^ d : ℕ) : ℤ) := by simp only [N]; rw [hmag, rhe_natCast]
    have hNq : (N : ℚ) * (2 : ℚ) ^ q = x.mag := by
      rw [hN, Int.cast_natCast, ← hmag]; field_simp
    have hltN : N < 2 ^ z.prec := by
      rw [hN, hd, pow_add]
      have h2 := Nat.mul_lt_mul_of_pos_right (lt_two_pow_bitLen k) (Nat.two_pow_pos d)
      exact_mod_cast h2
    rw [hNq, hr]
    refine ⟨rfl, rfl, rfl, by simp [accOf, hz1], Or.inl ⟨hf, hm, rfl, Or.inl ⟨rfl, hltN⟩, ⟨k, j, hk, ?_⟩⟩⟩
    exact lt_of_lt_of_le hkp (Nat.pow_le_pow_right (by norm_num) hlt)

/-- Extracting `P` leading bits of the mantissa. -/
theorem extract_eq {r : BigFloat} {P M : ℕ} (h : r.mag = M * (2 : ℚ) ^ (r.exp - P)) :
    (r.mant <<< P) >>> bitLen r.mant = M := by
  rw [mag_eq] at h
  have h2 : (r.mant : ℚ) * 2 ^ P = M * 2 ^ bitLen r.mant := by
    have hL : (2 : ℚ) ^ (r.exp - bitLen r.mant) * 2 ^ bitLen r.mant = 2 ^ r.exp := by
      rw [← zpow_natCast, ← zpow_add₀ (by norm_num)]; congr 1; ring
    have hP : (2 : ℚ) ^ (r.exp - P) * 2 ^ P = 2 ^ r.exp := by
      rw [← zpow_natCast, ← zpow_add₀ (by norm_num)]; congr 1; ring
    have he : (0 : ℚ) < 2 ^ r.exp := by positivity
    apply mul_right_cancel₀ he.ne'
    calc (r.mant : ℚ) * 2 ^ P * 2 ^ r.exp = (r.mant * 2 ^ (r.exp - bitLen r.mant)) * 2 ^ P * 2 ^ bitLen r.mant := by
          rw [← hL]; ring
      _ = M * 2 ^ bitLen r.mant * 2 ^ r.exp := by rw [h, ← hP]; ring
  have h3 : r.mant * 2 ^ P = M * 2 ^ bitLen r.mant := by exact_mod_cast h2
  rw [Nat.shiftLeft_eq, Nat.shiftRight_eq_div_pow, h3, Nat.mul_div_cancel _ (Nat.two_pow_pos _)]

end BigFloat

theorem two_pow_w (F : Format) (hw : 1 ≤ F.w) : ((2 ^ F.w : ℕ) : ℤ) = 2 * F.bias + 2 := by
  obtain ⟨w, h⟩ : ∃ w, F.w = w + 1 := ⟨F.w - 1, by omega⟩
  unfold Format.bias
  rw [h]; simp only [Nat.add_sub_cancel]; push_cast; ring

theorem bias_pos (F : Format) (hw : 2 ≤ F.w) : 1 ≤ F.bias := by
  obtain ⟨w, h⟩ : ∃ w, F.w = w + 2 := ⟨F.w - 2, by omega⟩
  unfold Format.bias
  rw [h]; simp only [show w + 2 - 1 = w + 1 by omega]
  have : (2 : ℤ) ^ 1 ≤ 2 ^ (w + 1) := pow_le_pow_right₀ (by norm_num) (by omega)
  linarith

theorem bias_lt_maxExp (F : Format) (hw : F.w ≤ 30) : F.bias + 2 < BigFloat.MaxExp := by
  unfold Format.bias BigFloat.MaxExp
  have : (2 : ℤ) ^ (F.w - 1) ≤ 2 ^ 29 := pow_le_pow_right₀ (by norm_num) (by omega)
  norm_num at this ⊢; linarith

open BigFloat in
/-- `toIEEE` as a formula: the code is that of the magnitude rounded half-even to the quantum of its binade,
and the infinity if this exceeds the finite codes. -/
theorem toIEEE_formula (F : Format) (hw2 : 2 ≤ F.w) (hw30 : F.w ≤ 30) {x : BigFloat} (hx : x.WF)
    (hf : x.form = .finite) :
    ∃ k N : ℕ, (k : ℤ) = max (x.exp - 1) (1 - F.bias) - (1 - F.bias) ∧
      (N : ℤ) = rhe (x.mag / 2 ^ (F.qmin + k)) ∧
      toIEEE F.t F.w x =
        if F.infCode ≤ k * 2 ^ F.t + N then (F.signPart x.neg + F.infCode, makeAcc (!x.neg))
        else (F.signPart x.neg + (k * 2 ^ F.t + N), accOf x.neg (N * (2 : ℚ) ^ (F.qmin + k)) x.mag) := by
  have hm := hx.mant_pos hf
  have hmag0 := mag_pos hm
  have hlt := mag_lt x
  have hle := le_mag hm
  have hb1 := bias_pos F hw2
  have hbM := bias_lt_maxExp F hw30
  have hPw := two_pow_w F (by omega)
  have hPt := Nat.two_pow_pos F.t
  have hif : F.infCode = (2 ^ F.w - 1) * 2 ^ F.t := rfl
  have hge3 : 3 ≤ 2 ^ F.w - 1 := by
    have : 2 ^ 2 ≤ 2 ^ F.w := Nat.pow_le_pow_right (by norm_num) hw2
    omega
  have hPt_le : 2 ^ F.t * 3 ≤ F.infCode := by rw [hif, Nat.mul_comm]; exact Nat.mul_le_mul_right _ hge3
  obtain ⟨k, hk⟩ : ∃ k : ℕ, (k : ℤ) = max (x.exp - 1) (1 - F.bias) - (1 - F.bias) :=
    ⟨(max (x.exp - 1) (1 - F.bias) - (1 - F.bias)).toNat, by rw [Int.toNat_of_nonneg]; omega⟩
  have hQ0 : (0 : ℚ) < 2 ^ (F.qmin + k) := by positivity
  have hN0 : 0 ≤ rhe (x.mag / 2 ^ (F.qmin + k)) :=
    le_rhe_of_le (by push_cast; positivity)
  obtain ⟨N, hN⟩ : ∃ N : ℕ, (N : ℤ) = rhe (x.mag / 2 ^ (F.qmin + k)) :=
    ⟨_, Int.toNat_of_nonneg hN0⟩
  refine ⟨k, N, hk, hN, ?_⟩
  have hbias : ((2 : ℤ) ^ (F.w - 1) - 1) = F.bias := rfl
  unfold toIEEE
  rw [hf]
  simp only [hbias]
  rw [← hif]
  have hsign : (if x.neg = true then 2 ^ (F.t + F.w) else 0) = F.signPart x.neg := rfl
  rw [hsign]
  set e := x.exp - 1 with he
  set p : ℤ := if e < 1 - F.bias then (F.t : ℤ) + 1 - (1 - F.bias) + e else (F.t : ℤ) + 1 with hp
  have hqm : F.qmin = 1 - F.bias - F.t := rfl
  have hqp : F.qmin + k = x.exp - p := by
    rw [hp]; split <;> omega
  by_cases hpn : p ≤ 0
  · -- underflow
    have hlow : e < 1 - F.bias := by
      by_contra h
      rw [hp, if_neg h] at hpn; omega
    have hk0 : k = 0 := by omega
    subst hk0
    have hq0 : F.qmin + ((0 : ℕ) : ℤ) = F.qmin := by simp
    rw [hq0] at hQ0 hN hqp ⊢
    have hlt1 : x.mag / 2 ^ F.qmin < 1 := by
      rw [div_lt_one hQ0]
      refine hlt.trans_le (zpow_le_zpow_right₀ (by norm_num) (by omega))
    by_cases hhalf : x.mag / 2 ^ F.qmin ≤ 1 / 2
    · have hNz : N = 0 := by
        have : rhe (x.mag / 2 ^ F.qmin) = 0 := by
          have hfl : ⌊x.mag / 2 ^ F.qmin⌋ = 0 := by
            rw [Int.floor_eq_iff]; push_cast
            exact ⟨by positivity, by linarith⟩
          unfold rhe; rw [hfl]
          simp only [Int.cast_zero, sub_zero]
          split
          · rfl
          · rw [if_neg (by linarith)]; simp
        rw [this] at hN; exact_mod_cast hN
      subst hNz
      have hcond : p < 0 ∨ p = 0 ∧ x.mant = 2 ^ (bitLen x.mant - 1) := by
        rcases lt_or_eq_of_le hpn with h | h
        · exact Or.inl h
        · right
          refine ⟨h, ?_⟩
          rw [div_le_iff₀ hQ0, mag_eq] at hhalf
          have hex : x.exp = F.qmin := by omega
          have hb := bitLen_pos hm
          rw [hex, show F.qmin = (F.qmin - bitLen x.mant) + (bitLen x.mant : ℤ) by ring,
            zpow_add₀ (by norm_num) (F.qmin - bitLen x.mant)] at hhalf
          have hz : (0 : ℚ) < 2 ^ (F.qmin - bitLen x.mant) := by positivity
          rw [show (F.qmin - bitLen x.mant + (bitLen x.mant : ℤ) - bitLen x.mant) = F.qmin - bitLen x.mant by ring,
            zpow_natCast] at hhalf
          have h3 : (x.mant : ℚ) ≤ 1 / 2 * 2 ^ bitLen x.mant := by
            refine le_of_mul_le_mul_right ?_ hz
            linarith
          have h4 : (x.mant : ℚ) * 2 ≤ 2 ^ bitLen x.mant := by linarith
          have h5 : x.mant * 2 ≤ 2 ^ bitLen x.mant := by exact_mod_cast h4
          have h6 : 2 ^ bitLen x.mant = 2 ^ (bitLen x.mant - 1) * 2 := by
            rw [← pow_succ, Nat.sub_add_cancel hb]
          have h7 := two_pow_le_of_pos hm
          omega
      have hni : ¬ F.infCode ≤ 0 * 2 ^ F.t + 0 := by omega
      rw [if_pos hcond, if_neg hni]
      simp only [Nat.add_zero, Nat.cast_zero, zero_mul, accOf]
      rw [if_neg hmag0.ne, if_pos hmag0]; rfl
    · push Not at hhalf
      have hNo : N = 1 := by
        have : rhe (x.mag / 2 ^ F.qmin) = 1 := by
          have hfl : ⌊x.mag / 2 ^ F.qmin⌋ = 0 := by
            rw [Int.floor_eq_iff]; push_cast
            exact ⟨by positivity, by linarith⟩
          unfold rhe; rw [hfl]
          simp only [Int.cast_zero, sub_zero]
          rw [if_neg (by linarith), if_pos hhalf]; rfl
        rw [this] at hN; exact_mod_cast hN
      subst hNo
      have hp0 : p = 0 := by
        by_contra h
        have hex : x.exp ≤ F.qmin - 1 := by omega
        have : x.mag < 1 / 2 * 2 ^ F.qmin := by
          refine hlt.trans_le ((zpow_le_zpow_right₀ (by norm_num) hex).trans ?_)
          rw [zpow_sub_one₀ (by norm_num)]; linarith
        rw [← div_lt_iff₀ hQ0] at this; linarith
      have hcond : ¬ (p < 0 ∨ p = 0 ∧ x.mant = 2 ^ (bitLen x.mant - 1)) := by
        rintro (h | ⟨_, h⟩)
        · omega
        · have hex : x.exp = F.qmin := by omega
          have : x.mag = 1 / 2 * 2 ^ F.qmin := by
            rw [mag_eq, h, bitLen_two_pow, Nat.sub_add_cancel (bitLen_pos hm), hex]
            push_cast
            rw [← zpow_natCast, ← zpow_add₀ (by norm_num)]
            push_cast [bitLen_pos hm]
            rw [show (bitLen x.mant : ℤ) - 1 + (F.qmin - bitLen x.mant) = F.qmin - 1 by ring,
              zpow_sub_one₀ (by norm_num)]; ring
          rw [this] at hhalf
          rw [mul_div_cancel_right₀ _ hQ0.ne'] at hhalf
          linarith
      have hni : ¬ F.infCode ≤ 0 * 2 ^ F.t + 1 := by omega
      rw [if_neg hcond, if_pos hp0, if_neg hni]
      rw [div_lt_one hQ0] at hlt1
      simp only [Nat.zero_mul, Nat.zero_add, Nat.cast_one, one_mul, accOf]
      rw [if_neg hlt1.ne', if_neg hlt1.le.not_gt]
      cases x.neg <;> rfl
  · -- p > 0
    push Not at hpn
    rw [if_neg (by omega), if_neg (by omega)]
    obtain ⟨P, hP⟩ : ∃ P : ℕ, p = (P : ℤ) := ⟨p.toNat, by omega⟩
    have hP1 : 1 ≤ P := by omega
    simp only [hP, Int.toNat_natCast]
    rw [hP] at hqp
    have hset := set_nearest hx hf (z := { new with prec := P }) hP1 rfl
    set r := set { new with prec := P } x with hr
    simp only [← hqp, ← hN] at hset
    obtain ⟨hneg, -, -, hacc, hcase⟩ := hset
    rw [hacc]
    have hmk : (if x.neg = true then Accuracy.below else Accuracy.above) = makeAcc (!x.neg) := by
      cases x.neg <;> rfl
    rw [hmk]
    rcases hcase with ⟨hrf, hrm, hrmag, hexp, -⟩ | ⟨hrf, hNN, hexp⟩
    · have hrf' : ¬ r.form = .inf := by rw [hrf]; decide
      simp only [hrf', false_or]
      rw [Int.cast_natCast] at hrmag
      rcases hexp with ⟨hre, hNlt⟩ | ⟨hre, hNeq, hexM⟩
      · have hNlt' : N < 2 ^ P := by exact_mod_cast hNlt
        by_cases hsub : e < 1 - F.bias
        · have hk0 : k = 0 := by omega
          have hPle : P ≤ F.t := by rw [hp, if_pos hsub] at hP; omega
          have : 2 ^ P ≤ 2 ^ F.t := Nat.pow_le_pow_right (by norm_num) hPle
          have hPeq : ((F.t : ℤ) + 1 - (1 - F.bias) + (r.exp - 1)).toNat = P := by
            rw [hp, if_pos hsub] at hP; rw [hre]; omega
          have hni : ¬ F.infCode ≤ k * 2 ^ F.t + N := by rw [hk0]; omega
          rw [if_neg (by omega), if_pos (by omega), if_neg hni, hPeq,
            extract_eq (M := N) (by rw [hrmag, hqp, hre])]
          simp [hk0]
        · have hPt1 : P = F.t + 1 := by rw [hp, if_neg hsub] at hP; omega
          have hNge : 2 ^ F.t ≤ N := by
            have : ((2 ^ F.t : ℕ) : ℤ) ≤ rhe (x.mag / 2 ^ (F.qmin + k)) := by
              apply le_rhe_of_le
              rw [le_div_iff₀ hQ0]
              push_cast
              rw [← zpow_natCast, ← zpow_add₀ (by norm_num)]
              refine le_trans (le_of_eq ?_) hle
              congr 1; omega
            rw [← hN] at this; exact_mod_cast this
          rw [hPt1, pow_succ] at hNlt'
          by_cases hov : r.exp - 1 > F.bias
          · have hge : F.infCode ≤ k * 2 ^ F.t + N := by
              have h1 : 2 ^ F.w - 1 ≤ k + 1 := by omega
              rw [hif]
              calc (2 ^ F.w - 1) * 2 ^ F.t ≤ (k + 1) * 2 ^ F.t := Nat.mul_le_mul_right _ h1
                _ ≤ _ := by rw [Nat.add_mul]; omega
            rw [if_pos hov, if_pos hge]
          · have hlt' : ¬ F.infCode ≤ k * 2 ^ F.t + N := by
              push Not
              have h1 : k + 2 ≤ 2 ^ F.w - 1 := by omega
              rw [hif]
              calc k * 2 ^ F.t + N < (k + 2) * 2 ^ F.t := by rw [Nat.add_mul]; omega
                _ ≤ _ := Nat.mul_le_mul_right _ h1
            rw [if_neg hov, if_neg (by omega), if_neg hlt',
              extract_eq (M := N) (by rw [hrmag, hqp, hre, hPt1])]
            have h1 : (r.exp - 1 + F.bias).toNat = k + 1 := by omega
            have h2 : N % 2 ^ F.t = N - 2 ^ F.t := by
              rw [Nat.mod_eq_sub_mod hNge, Nat.mod_eq_of_lt (by omega)]
            rw [h1, h2, Nat.add_mul]
            congr 1; omega
      · have hNeq' : N = 2 ^ P := by exact_mod_cast hNeq
        by_cases hsub : e + 1 < 1 - F.bias
        · have hk0 : k = 0 := by omega
          have hsub' : e < 1 - F.bias := by omega
          have hPle : P < F.t := by rw [hp, if_pos hsub'] at hP; omega
          have : 2 ^ P ≤ 2 ^ F.t := Nat.pow_le_pow_right (by norm_num) hPle.le
          have hPeq : ((F.t : ℤ) + 1 - (1 - F.bias) + (r.exp - 1)).toNat = P + 1 := by
            rw [hp, if_pos hsub'] at hP; rw [hre]; omega
          have hni : ¬ F.infCode ≤ k * 2 ^ F.t + N := by rw [hk0]; omega
          rw [if_neg (by omega), if_pos (by omega), if_neg hni, hPeq,
            extract_eq (M := N) (by rw [hrmag, hqp, hre]; congr 2; push_cast; ring)]
          simp [hk0]
        · have hext : (r.mant <<< (F.t + 1)) >>> bitLen r.mant = 2 ^ F.t := by
            apply extract_eq
            rw [hrmag, hNeq', hqp, hre]
            push_cast
            rw [← zpow_natCast, ← zpow_natCast, ← zpow_add₀ (by norm_num), ← zpow_add₀ (by norm_num)]
            congr 1; ring
          rw [hext, Nat.mod_self, Nat.add_zero]
          have hn : k * 2 ^ F.t + N = (e + 1 + F.bias).toNat * 2 ^ F.t := by
            by_cases hs : e < 1 - F.bias
            · have hk0 : k = 0 := by omega
              have hPe : P = F.t := by rw [hp, if_pos hs] at hP; omega
              have : (e + 1 + F.bias).toNat = 1 := by omega
              rw [this, hk0, hNeq', hPe]; ring
            · have hPe : P = F.t + 1 := by rw [hp, if_neg hs] at hP; omega
              have : (e + 1 + F.bias).toNat = k + 2 := by omega
              rw [this, hNeq', hPe, pow_succ]; ring
          rw [hn]
          by_cases hov : r.exp - 1 > F.bias
          · have hge : F.infCode ≤ (e + 1 + F.bias).toNat * 2 ^ F.t := by
              rw [hif]; apply Nat.mul_le_mul_right; omega
            rw [if_pos hov, if_pos hge]
          · have hlt' : ¬ F.infCode ≤ (e + 1 + F.bias).toNat * 2 ^ F.t := by
              push Not
              rw [hif]; apply Nat.mul_lt_mul_of_pos_right _ hPt; omega
            rw [if_neg hov, if_neg (by omega), if_neg hlt']
            congr 3
            omega
    · simp only [hrf, true_or, if_true]
      have hPt1 : P = F.t + 1 := by
        rw [hp, if_neg (by omega)] at hP; omega
      have hge : F.infCode ≤ k * 2 ^ F.t + N := by
        have h1 : 2 ^ F.w - 1 ≤ k := by omega
        rw [hif]
        exact (Nat.mul_le_mul_right _ h1).trans (Nat.le_add_right _ _)
      rw [if_pos hge]

end GoFloat
