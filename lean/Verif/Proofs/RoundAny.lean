import Verif.Proofs.Trunc
/-
Rounding of the model of `math/big.Float` in an arbitrary mode.
-/
namespace GoFloat
namespace BigFloat

/-- In every mode, rounding moves the number by less than one unit in the last place. -/
theorem round_any {z : BigFloat} (hf : z.form = .finite) (hm : 0 < z.mant) (hp : 1 ≤ z.prec) :
    z.round.neg = z.neg ∧ z.round.prec = z.prec ∧ z.round.mode = z.mode ∧
    ((z.round.form = .finite ∧ 0 < z.round.mant ∧ |z.mag - z.round.mag| < 2 ^ (z.exp - z.prec) ∧
      (z.round.exp = z.exp ∨ z.round.exp = z.exp + 1 ∧ z.exp < MaxExp) ∧ ∃ k j, z.round.mant = k * 2 ^ j ∧ k < 2 ^ z.prec) ∨
     (z.round.form = .inf ∧ MaxExp ≤ z.exp)) := by
  have hq0 : (0 : ℚ) < (2 : ℚ) ^ (z.exp - z.prec) := by positivity
  by_cases hL : bitLen z.mant ≤ z.prec
  · have hr : z.round = { z with acc := .exact } := by
      unfold round; rw [hf]; simp only; rw [if_pos hL]
    rw [hr]
    refine ⟨rfl, rfl, rfl, Or.inl ⟨hf, hm, ?_, Or.inl rfl, fits_of_bitLen hL⟩⟩
    have : ({ z with acc := .exact } : BigFloat).mag = z.mag := rfl
    rw [this, sub_self, abs_zero]; exact hq0
  · push Not at hL
    obtain ⟨s, hs⟩ : ∃ s, bitLen z.mant = z.prec + s := ⟨bitLen z.mant - z.prec, by omega⟩
    have hs1 : 1 ≤ s := by omega
    have hss : bitLen z.mant - z.prec = s := by omega
    set q := z.mant >>> s with hq
    have hqlt : q < 2 ^ z.prec := by
      rw [hq, Nat.shiftRight_eq_div_pow, Nat.div_lt_iff_lt_mul (Nat.two_pow_pos s), ← pow_add, ← hs]
      exact lt_two_pow_bitLen _
    have hqge : 2 ^ (z.prec - 1) ≤ q := by
      rw [hq, Nat.shiftRight_eq_div_pow, Nat.le_div_iff_mul_le (Nat.two_pow_pos s), ← pow_add]
      have := two_pow_le_of_pos hm
      rwa [show z.prec - 1 + s = bitLen z.mant - 1 by omega]
    have hbl : ∀ {n}, 2 ^ (z.prec - 1) ≤ n → n < 2 ^ z.prec → bitLen n = z.prec := by
      intro n h1 h2
      have := bitLen_eq_of (k := z.prec - 1) h1 (by rwa [Nat.sub_add_cancel hp])
      omega
    have hdm := Nat.div_add_mod z.mant (2 ^ s)
    have hmodlt := Nat.mod_lt z.mant (Nat.two_pow_pos s)
    set r : ℚ := ((z.mant % 2 ^ s : ℕ) : ℚ) / 2 ^ s with hr
    have hr0 : 0 ≤ r := by positivity
    have hr1 : r < 1 := by rw [hr, div_lt_one (by positivity)]; exact_mod_cast hmodlt
    have hmag : z.mag = (q + r) * 2 ^ (z.exp - z.prec) := by
      rw [mag_eq]
      have h1 : (z.mant : ℚ) = (q + r) * 2 ^ s := by
        rw [hr, add_mul, div_mul_cancel₀ _ (by positivity), hq, Nat.shiftRight_eq_div_pow]
        have : (z.mant : ℚ) = 2 ^ s * ((z.mant / 2 ^ s : ℕ) : ℚ) + ((z.mant % 2 ^ s : ℕ) : ℚ) := by
          exact_mod_cast hdm.symm
        rw [mul_comm ((z.mant / 2 ^ s : ℕ) : ℚ)]; exact this
      rw [h1, mul_assoc, ← zpow_natCast, ← zpow_add₀ (by norm_num)]
      congr 2; omega
    have hmagn : ∀ {n : ℕ} (a : Accuracy), 2 ^ (z.prec - 1) ≤ n → n < 2 ^ z.prec →
        ({ z with acc := a, form := .finite, mant := n } : BigFloat).mag = n * 2 ^ (z.exp - z.prec) := by
      intro n a h1 h2
      rw [mag_eq]; simp only; rw [hbl h1 h2]
    have hdist : ∀ t : ℚ, |z.mag - t * 2 ^ (z.exp - z.prec)| = |q + r - t| * 2 ^ (z.exp - z.prec) := by
      intro t; rw [hmag, ← sub_mul, abs_mul, abs_of_pos hq0]
    have hpos : 0 < q := lt_of_lt_of_le (Nat.two_pow_pos _) hqge
    -- keeping q
    have keep : ∀ a : Accuracy, let w : BigFloat := { z with acc := a, form := .finite, mant := q }
        w.neg = z.neg ∧ w.prec = z.prec ∧ w.mode = z.mode ∧
        ((w.form = .finite ∧ 0 < w.mant ∧ |z.mag - w.mag| < 2 ^ (z.exp - z.prec) ∧
          (w.exp = z.exp ∨ w.exp = z.exp + 1 ∧ z.exp < MaxExp) ∧ ∃ k j, w.mant = k * 2 ^ j ∧ k < 2 ^ z.prec) ∨
        (w.form = .inf ∧ MaxExp ≤ z.exp)) := by
      intro a w
      refine ⟨rfl, rfl, rfl, Or.inl ⟨rfl, hpos, ?_, Or.inl rfl, ⟨q, 0, by simp [w], hqlt⟩⟩⟩
      rw [hmagn a hqge hqlt, hdist, show (q : ℚ) + r - q = r by ring, abs_of_nonneg hr0]
      nlinarith
    unfold round
    rw [hf]
    simp only
    rw [if_neg (by omega), hss, ← hq]
    split
    · exact keep _
    · rename_i hne
      have hr0' : 0 < r := by
        rcases hr0.lt_or_eq with h | h
        · exact h
        · exfalso
          have hex : z.mant % 2 ^ s = 0 := by
            rw [hr, eq_comm, div_eq_zero_iff] at h
            rcases h with h | h
            · exact_mod_cast h
            · exact absurd h (by positivity)
          apply hne
          obtain ⟨u, hu⟩ : ∃ u, s = u + 1 := ⟨s - 1, by omega⟩
          rw [hu] at hex ⊢
          simp only [Nat.add_sub_cancel]
          have h1 : z.mant % 2 ^ u = 0 := by
            have := Nat.mod_mod_of_dvd z.mant (pow_dvd_pow 2 (by omega : u ≤ u + 1)); rw [hex] at this; simpa using this.symm
          rw [Nat.testBit_eq_decide_div_mod_eq, h1]
          have h2 : z.mant / 2 ^ u % 2 = 0 := by
            obtain ⟨c, hc⟩ := Nat.dvd_of_mod_eq_zero hex
            rw [hc, pow_succ, mul_assoc, Nat.mul_div_cancel_left _ (Nat.two_pow_pos u)]; omega
          simp [h2]
      have up : |q + r - (q + 1 : ℕ)| * (2 : ℚ) ^ (z.exp - z.prec) < 2 ^ (z.exp - z.prec) := by
        rw [Nat.cast_add, Nat.cast_one, show (q : ℚ) + r - (q + 1) = -(1 - r) by ring, abs_neg, abs_of_pos (by linarith)]
        nlinarith
      split
      · split
        · rename_i hov
          split
          · exact ⟨rfl, rfl, rfl, Or.inr ⟨rfl, by omega⟩⟩
          · refine ⟨rfl, rfl, rfl, Or.inl ⟨rfl, by positivity, ?_, Or.inr ⟨rfl, by omega⟩, ⟨2 ^ (z.prec - 1), 0, by simp, ?_⟩⟩⟩
            · have : ∀ a, ({ z with acc := a, form := .finite, mant := 2 ^ (z.prec - 1), exp := z.exp + 1 } : BigFloat).mag
                  = ((q + 1 : ℕ) : ℚ) * 2 ^ (z.exp - z.prec) := by
                intro a
                rw [mag_eq]
                simp only
                rw [bitLen_two_pow, Nat.sub_add_cancel hp, hov, Nat.cast_pow, Nat.cast_pow, ← zpow_natCast, ← zpow_natCast,
                  Nat.cast_ofNat, ← zpow_add₀ (by norm_num), ← zpow_add₀ (by norm_num)]
                congr 1; omega
              rw [this, hdist]; exact up
            · exact Nat.pow_lt_pow_right (by norm_num) (by omega)
        · rename_i hov
          have h1 : q + 1 < 2 ^ z.prec := by omega
          refine ⟨rfl, rfl, rfl, Or.inl ⟨rfl, by simp, ?_, Or.inl rfl, ⟨q + 1, 0, by simp, h1⟩⟩⟩
          rw [hmagn _ (by omega) h1, hdist]; exact up
      · exact keep _

/-- `SetPrec` in an arbitrary mode. -/
theorem setPrec_any {x : BigFloat} (hx : x.WF) (hf : x.form = .finite) {p : ℕ} (hp1 : 1 ≤ p) (hp2 : p ≤ MaxPrec) :
    (x.setPrec p).neg = x.neg ∧ (x.setPrec p).prec = p ∧ (x.setPrec p).mode = x.mode ∧
    (((x.setPrec p).form = .finite ∧ (x.setPrec p).WF ∧ |x.mag - (x.setPrec p).mag| < 2 ^ (x.exp - p) ∧
      ((x.setPrec p).exp = x.exp ∨ (x.setPrec p).exp = x.exp + 1)) ∨
     ((x.setPrec p).form = .inf ∧ x.exp = MaxExp)) := by
  have hm := hx.mant_pos hf
  have hge := hx.exp_ge hf
  have hle := hx.exp_le hf
  by_cases h : x.prec ≤ p
  · rw [setPrec_widen hp1 hp2 h]
    refine ⟨rfl, rfl, rfl, Or.inl ⟨hf, ?_, ?_, Or.inl rfl⟩⟩
    · have := hx.widen (p := p) hp2 h x.mode .exact
      exact this
    · have : ({ x with prec := p, acc := .exact } : BigFloat).mag = x.mag := rfl
      rw [this, sub_self, abs_zero]; positivity
  · have hr : x.setPrec p = round { x with prec := p } := by
      unfold setPrec
      rw [if_neg (by omega)]
      simp only [min_eq_left hp2]
      rw [if_pos (by omega)]
    rw [hr]
    obtain ⟨r1, r2, r3, r4⟩ := round_any (z := { x with prec := p }) hf hm hp1
    have hmagx : ({ x with prec := p } : BigFloat).mag = x.mag := rfl
    rw [hmagx] at r4
    simp only at r1 r2 r3 r4
    refine ⟨r1, r2, r3, ?_⟩
    rcases r4 with ⟨f1, f2, f3, f4, f5⟩ | ⟨g1, g2⟩
    · left
      refine ⟨f1, ⟨by rw [r2]; exact hp2, fun _ => f2, fun _ => by omega, fun _ => by omega, fun _ => by rw [r2]; exact hp1,
        fun _ => by rw [r2]; exact f5⟩, f3, by tauto⟩
    · exact Or.inr ⟨g1, by omega⟩

end BigFloat
end GoFloat
