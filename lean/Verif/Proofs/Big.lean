import Verif.Proofs.Bits
import Mathlib.Tactic.Zify
import Mathlib.Algebra.Order.Field.Power
/-
Lemmas on the model of `math/big.Float`: magnitude, rounding, truncation.
-/
namespace GoFloat
namespace BigFloat

theorem mag_eq (x : BigFloat) : x.mag = (x.mant : ℚ) * (2 : ℚ) ^ (x.exp - bitLen x.mant) := by
  unfold mag
  rw [zpow_sub₀ (by norm_num), zpow_natCast]
  ring

theorem mag_pos {x : BigFloat} (h : 0 < x.mant) : 0 < x.mag := by
  rw [mag_eq]
  have : (0 : ℚ) < x.mant := by exact_mod_cast h
  positivity

theorem mag_lt (x : BigFloat) : x.mag < (2 : ℚ) ^ x.exp := by
  rw [mag_eq]
  have h : (x.mant : ℚ) < 2 ^ bitLen x.mant := by exact_mod_cast lt_two_pow_bitLen x.mant
  calc (x.mant : ℚ) * (2 : ℚ) ^ (x.exp - bitLen x.mant)
      < 2 ^ bitLen x.mant * (2 : ℚ) ^ (x.exp - bitLen x.mant) :=
        mul_lt_mul_of_pos_right h (by positivity)
    _ = (2 : ℚ) ^ x.exp := by
        rw [← zpow_natCast, ← zpow_add₀ (by norm_num)]; congr 1; ring

theorem le_mag {x : BigFloat} (h : 0 < x.mant) : (2 : ℚ) ^ (x.exp - 1) ≤ x.mag := by
  rw [mag_eq]
  have h1 : ((2 : ℚ)) ^ (bitLen x.mant - 1) ≤ x.mant := by exact_mod_cast two_pow_le_of_pos h
  have hb := bitLen_pos h
  calc (2 : ℚ) ^ (x.exp - 1) = (2 : ℚ) ^ (bitLen x.mant - 1) * (2 : ℚ) ^ (x.exp - bitLen x.mant) := by
        rw [← zpow_natCast, ← zpow_add₀ (by norm_num)]; congr 1; push_cast [hb]; ring
    _ ≤ _ := mul_le_mul_of_nonneg_right h1 (by positivity)

/-- The true accuracy for a result of magnitude `r` and an exact magnitude `m`, both with sign `neg`. -/
def accOf (neg : Bool) (r m : ℚ) : Accuracy :=
  if r = m then .exact else if r < m then makeAcc neg else makeAcc (!neg)

/-- Quantum exponent of a `prec`-bit number with the exponent of `x`. -/
def quant (x : BigFloat) (prec : ℕ) : ℤ := x.exp - prec

theorem fits_of_bitLen {m p : ℕ} (h : bitLen m ≤ p) : ∃ k j, m = k * 2 ^ j ∧ k < 2 ^ p :=
  ⟨m, 0, by simp, lt_of_bitLen_le h⟩

theorem fits_mul_two_pow {m p i : ℕ} (h : ∃ k j, m = k * 2 ^ j ∧ k < 2 ^ p) :
    ∃ k j, m * 2 ^ i = k * 2 ^ j ∧ k < 2 ^ p := by
  obtain ⟨k, j, rfl, hk⟩ := h
  exact ⟨k, j + i, by rw [pow_add]; ring, hk⟩

/-- A mantissa that fits the precision is not changed by rounding, in any mode. -/
theorem round_of_fits {z : BigFloat} (hf : z.form = .finite) (hm : 0 < z.mant)
    (hfit : ∃ k j, z.mant = k * 2 ^ j ∧ k < 2 ^ z.prec) :
    ∃ m, z.round = { z with acc := .exact, mant := m } ∧ 0 < m ∧ (∃ i, z.mant = m * 2 ^ i) ∧
      (∃ k j, m = k * 2 ^ j ∧ k < 2 ^ z.prec) := by
  unfold round
  rw [hf]
  simp only
  split
  · exact ⟨z.mant, by simp, hm, ⟨0, by simp⟩, hfit⟩
  · rename_i hL
    push Not at hL
    obtain ⟨k, j, hkj, hk⟩ := hfit
    have hk0 : 0 < k := by
      rcases Nat.eq_zero_or_pos k with h | h
      · rw [h] at hkj; simp at hkj; omega
      · exact h
    have hbl : bitLen z.mant = bitLen k + j := by rw [hkj, bitLen_mul_two_pow hk0]
    have hbk : bitLen k ≤ z.prec := bitLen_le_of_lt hk
    set s := bitLen z.mant - z.prec with hs
    have hsj : s ≤ j := by omega
    obtain ⟨i, hi⟩ : ∃ i, j = s + i := ⟨j - s, by omega⟩
    have hdvd : z.mant = (k * 2 ^ i) * 2 ^ s := by rw [hkj, hi, pow_add]; ring
    have hs1 : 1 ≤ s := by omega
    have hsh : z.mant >>> s = k * 2 ^ i := by
      rw [Nat.shiftRight_eq_div_pow, hdvd, Nat.mul_div_cancel _ (Nat.two_pow_pos s)]
    obtain ⟨u, hu⟩ : ∃ u, s = u + 1 := ⟨s - 1, by omega⟩
    have hrb : z.mant.testBit (s - 1) = false := by
      rw [Nat.testBit_eq_decide_div_mod_eq, hdvd, hu]
      simp only [Nat.add_sub_cancel, pow_succ, decide_eq_false_iff_not]
      rw [show k * 2 ^ i * (2 ^ u * 2) = (k * 2 ^ i * 2) * 2 ^ u by ring, Nat.mul_div_cancel _ (Nat.two_pow_pos u)]
      omega
    have hsb : (z.mant % 2 ^ (s - 1) != 0) = false := by
      rw [hdvd, hu]
      simp only [Nat.add_sub_cancel, pow_succ]
      rw [show k * 2 ^ i * (2 ^ u * 2) = (k * 2 ^ i * 2) * 2 ^ u by ring, Nat.mul_mod_left]
      rfl
    rw [hrb, hsb]
    refine ⟨k * 2 ^ i, by simp [hsh], by positivity, ⟨s, hdvd⟩, ⟨k, i, rfl, hk⟩⟩

theorem mag_of_mul {x y : BigFloat} {i : ℕ} (hm : 0 < x.mant) (he : x.exp = y.exp)
    (h : y.mant = x.mant * 2 ^ i) : x.mag = y.mag := by
  rw [mag_eq, mag_eq, h, bitLen_mul_two_pow hm, he]
  push_cast
  rw [mul_assoc, ← zpow_natCast, ← zpow_add₀ (by norm_num)]
  congr 2; ring

/-- Rounding to nearest even: the new magnitude is the multiple of the quantum given by `rhe`. -/
theorem round_nearest {z : BigFloat} (hf : z.form = .finite) (hm : 0 < z.mant) (hp : 1 ≤ z.prec)
    (hmode : z.mode = .toNearestEven) :
    let q : ℤ := z.exp - z.prec
    let N : ℤ := rhe (z.mag / (2 : ℚ) ^ q)
    z.round.neg = z.neg ∧ z.round.prec = z.prec ∧ z.round.mode = z.mode ∧
    z.round.acc = accOf z.neg (N * (2 : ℚ) ^ q) z.mag ∧
    ((z.round.form = .finite ∧ 0 < z.round.mant ∧ z.round.mag = N * (2 : ℚ) ^ q ∧
      (z.round.exp = z.exp ∧ N < 2 ^ z.prec ∨ z.round.exp = z.exp + 1 ∧ N = 2 ^ z.prec ∧ z.exp < MaxExp) ∧
      ∃ k j, z.round.mant = k * 2 ^ j ∧ k < 2 ^ z.prec) ∨
     (z.round.form = .inf ∧ N = 2 ^ z.prec ∧ MaxExp ≤ z.exp)) := by
  intro q N
  have hq0 : (0 : ℚ) < (2 : ℚ) ^ q := by positivity
  by_cases hL : bitLen z.mant ≤ z.prec
  · -- fits
    obtain ⟨d, hd⟩ : ∃ d, z.prec = bitLen z.mant + d := ⟨z.prec - bitLen z.mant, by omega⟩
    have hmag : z.mag / (2 : ℚ) ^ q = ((z.mant * 2 ^ d : ℕ) : ℚ) := by
      rw [mag_eq, mul_div_assoc, ← zpow_sub₀ (by norm_num)]
      have : z.exp - bitLen z.mant - q = (d : ℤ) := by simp only [q]; push_cast [hd]; ring
      rw [this, zpow_natCast]; push_cast; ring
    have hN : N = ((z.mant * 2 ^ d : ℕ) : ℤ) := by
      simp only [N]; rw [hmag, rhe_natCast]
    have hNq : (N : ℚ) * (2 : ℚ) ^ q = z.mag := by
      rw [hN, Int.cast_natCast, ← hmag]; field_simp
    have hr : z.round = { z with acc := .exact } := by
      unfold round; rw [hf]; simp only; rw [if_pos hL]
    have hlt : N < 2 ^ z.prec := by
      rw [hN, hd, pow_add]
      have := lt_two_pow_bitLen z.mant
      have h2 := Nat.mul_lt_mul_of_pos_right this (Nat.two_pow_pos d)
      exact_mod_cast h2
    rw [hNq, hr]
    refine ⟨rfl, rfl, rfl, by simp [accOf], Or.inl ⟨hf, hm, rfl, Or.inl ⟨rfl, hlt⟩, ?_⟩⟩
    exact fits_of_bitLen hL
  · push Not at hL
    obtain ⟨s, hs⟩ : ∃ s, bitLen z.mant = z.prec + s := ⟨bitLen z.mant - z.prec, by omega⟩
    have hs1 : 1 ≤ s := by omega
    have hmag : z.mag / (2 : ℚ) ^ q = (z.mant : ℚ) / 2 ^ s := by
      rw [mag_eq, mul_div_assoc, ← zpow_sub₀ (by norm_num)]
      have : z.exp - bitLen z.mant - q = -(s : ℤ) := by simp only [q]; push_cast [hs]; ring
      rw [this, zpow_neg, zpow_natCast]; rfl
    have hmag' : z.mag = (z.mant : ℚ) / 2 ^ s * (2 : ℚ) ^ q := by rw [← hmag]; field_simp
    have hN := rhe_div_two_pow z.mant s hs1
    rw [← hmag] at hN
    change N = _ at hN
    have hss : bitLen z.mant - z.prec = s := by omega
    -- bounds on the quotient
    have hqlt : z.mant >>> s < 2 ^ z.prec := by
      rw [Nat.shiftRight_eq_div_pow, Nat.div_lt_iff_lt_mul (Nat.two_pow_pos s), ← pow_add, ← hs]
      exact lt_two_pow_bitLen _
    have hqge : 2 ^ (z.prec - 1) ≤ z.mant >>> s := by
      rw [Nat.shiftRight_eq_div_pow, Nat.le_div_iff_mul_le (Nat.two_pow_pos s), ← pow_add]
      have := two_pow_le_of_pos hm
      rwa [show z.prec - 1 + s = bitLen z.mant - 1 by omega]
    have hq0' : 0 < z.mant >>> s := lt_of_lt_of_le (Nat.two_pow_pos _) hqge
    have hbq : bitLen (z.mant >>> s) = z.prec := by
      have := bitLen_eq_of (k := z.prec - 1) hqge (by rwa [Nat.sub_add_cancel hp])
      omega
    have hfl : ⌊(z.mant : ℚ) / 2 ^ s⌋ = ((z.mant >>> s : ℕ) : ℤ) := by
      have := Rat.floor_natCast_div_natCast z.mant (2 ^ s)
      rw [Nat.shiftRight_eq_div_pow]
      push_cast at this ⊢; exact this
    have hdm := Nat.div_add_mod z.mant (2 ^ s)
    have hfr : (z.mant : ℚ) / 2 ^ s = (z.mant >>> s : ℕ) + ((z.mant % 2 ^ s : ℕ) : ℚ) / 2 ^ s := by
      rw [Nat.shiftRight_eq_div_pow]
      have : (z.mant : ℚ) = 2 ^ s * ((z.mant / 2 ^ s : ℕ) : ℚ) + ((z.mant % 2 ^ s : ℕ) : ℚ) := by
        exact_mod_cast hdm.symm
      rw [this]
      rw [← this]
      field_simp
      exact this
    have hmod : z.mant % 2 ^ s = (if z.mant.testBit (s - 1) then 2 ^ (s - 1) else 0) + z.mant % 2 ^ (s - 1) := by
      obtain ⟨u, rfl⟩ : ∃ u, s = u + 1 := ⟨s - 1, by omega⟩
      simp only [Nat.add_sub_cancel]
      rw [Nat.mod_pow_succ, Nat.testBit_eq_decide_div_mod_eq]
      rcases Nat.mod_two_eq_zero_or_one (z.mant / 2 ^ u) with h | h <;> simp [h, Nat.add_comm]
    have hmodlt := Nat.mod_lt z.mant (Nat.two_pow_pos s)
    by_cases hex : z.mant % 2 ^ s = 0
    · -- exact
      have hrb : z.mant.testBit (s - 1) = false := by
        cases hb : z.mant.testBit (s - 1) with
        | false => rfl
        | true => rw [hb] at hmod; simp at hmod; have := Nat.two_pow_pos (s - 1); omega
      have hsb : z.mant % 2 ^ (s - 1) = 0 := by rw [hrb] at hmod; simp at hmod; omega
      have hr : z.round = { z with acc := .exact, mant := z.mant >>> s } := by
        unfold round; rw [hf]; simp only; rw [if_neg (by omega), hss, hrb, hsb]; simp
      rw [hrb] at hN
      simp only [Bool.false_and, Bool.false_eq_true, if_false] at hN
      have hNq : (N : ℚ) * (2 : ℚ) ^ q = z.mag := by
        rw [hmag', hfr, hN, hex, Int.cast_natCast]; simp
      have hmm : z.mant = (z.mant >>> s) * 2 ^ s := by
        rw [Nat.shiftRight_eq_div_pow]
        have := Nat.div_add_mod z.mant (2 ^ s); rw [hex] at this; linarith
      rw [hNq, hr]
      refine ⟨rfl, rfl, rfl, by simp [accOf], Or.inl ⟨hf, hq0', ?_, Or.inl ⟨rfl, ?_⟩, ?_⟩⟩
      · exact mag_of_mul (i := s) hq0' rfl hmm
      · rw [hN]; exact_mod_cast hqlt
      · exact fits_of_bitLen (by simp only [hbq]; omega)
    · -- inexact
      have hne : ¬ ((!z.mant.testBit (s - 1) && !(z.mant % 2 ^ (s - 1) != 0)) = true) := by
        intro h
        simp only [Bool.and_eq_true, Bool.not_eq_true', bne_eq_false_iff_eq] at h
        rw [h.1, h.2] at hmod; simp at hmod; exact hex (by rw [hmod])
      set inc : Bool := z.mant.testBit (s - 1) && (z.mant % 2 ^ (s - 1) != 0 || (z.mant >>> s).testBit 0) with hinc
      have hroundInc : roundInc z.mode z.neg (z.mant.testBit (s - 1)) (z.mant % 2 ^ (s - 1) != 0)
          ((z.mant >>> s).testBit 0) = inc := by rw [hmode]; rfl
      have hfpos : (0 : ℚ) < ((z.mant % 2 ^ s : ℕ) : ℚ) / 2 ^ s := by
        have : (0 : ℚ) < ((z.mant % 2 ^ s : ℕ) : ℚ) := by exact_mod_cast Nat.pos_of_ne_zero hex
        positivity
      have hflt : ((z.mant % 2 ^ s : ℕ) : ℚ) / 2 ^ s < 1 := by
        rw [div_lt_one (by positivity)]; exact_mod_cast hmodlt
      have hr : z.round = (let acc := makeAcc (inc != z.neg)
        if inc then
          if z.mant >>> s + 1 = 2 ^ z.prec then
            if z.exp ≥ MaxExp then { z with acc := acc, form := .inf }
            else { z with acc := acc, mant := 2 ^ (z.prec - 1), exp := z.exp + 1 }
          else { z with acc := acc, mant := z.mant >>> s + 1 }
        else { z with acc := acc, mant := z.mant >>> s }) := by
        unfold round; rw [hf]; simp only
        rw [if_neg (by omega), hss, if_neg hne, hroundInc]
      have hacc : makeAcc (inc != z.neg) = accOf z.neg (N * (2 : ℚ) ^ q) z.mag := by
        unfold accOf
        cases hi : inc with
        | false =>
          rw [hi] at hN; simp only [Bool.false_eq_true, if_false] at hN
          have hlt : (N : ℚ) * (2 : ℚ) ^ q < z.mag := by
            rw [hmag', hfr, hN, Int.cast_natCast]
            exact mul_lt_mul_of_pos_right (by linarith) hq0
          rw [if_neg (ne_of_lt hlt), if_pos hlt]; simp
        | true =>
          rw [hi] at hN; simp only [if_true] at hN
          have hlt : z.mag < (N : ℚ) * (2 : ℚ) ^ q := by
            rw [hmag', hfr, hN, Int.cast_add, Int.cast_natCast, Int.cast_one]
            exact mul_lt_mul_of_pos_right (by linarith) hq0
          rw [if_neg (ne_of_gt hlt), if_neg (not_lt.2 hlt.le)]; simp
      rw [hr]
      cases hi : inc with
      | false =>
        rw [hi] at hN hacc; simp only [Bool.false_eq_true, if_false] at hN
        dsimp only
        rw [if_neg Bool.false_ne_true]
        refine ⟨rfl, rfl, rfl, hacc, Or.inl ⟨hf, hq0', ?_, Or.inl ⟨rfl, ?_⟩, ?_⟩⟩
        · rw [mag_eq]; simp only [hbq, hN, Int.cast_natCast]; rfl
        · rw [hN]; exact_mod_cast hqlt
        · exact fits_of_bitLen (by simp only [hbq]; omega)
      | true =>
        rw [hi] at hN hacc; simp only [if_true] at hN
        dsimp only
        rw [if_pos rfl]
        by_cases hov : z.mant >>> s + 1 = 2 ^ z.prec
        · have hN2 : N = 2 ^ z.prec := by rw [hN]; exact_mod_cast hov
          rw [if_pos hov]
          by_cases hE : z.exp ≥ MaxExp
          · rw [if_pos hE]
            exact ⟨rfl, rfl, rfl, hacc, Or.inr ⟨rfl, hN2, hE⟩⟩
          · rw [if_neg hE]
            refine ⟨rfl, rfl, rfl, hacc, Or.inl ⟨hf, Nat.two_pow_pos _, ?_, Or.inr ⟨rfl, hN2, by omega⟩, ?_⟩⟩
            · rw [mag_eq]; simp only [bitLen_two_pow, hN2]; push_cast
              rw [← zpow_natCast, ← zpow_natCast, ← zpow_add₀ (by norm_num), ← zpow_add₀ (by norm_num)]
              congr 1; simp only [q]; push_cast [hp]; ring
            · exact ⟨2 ^ (z.prec - 1), 0, by simp, Nat.pow_lt_pow_right (by norm_num) (by omega)⟩
        · rw [if_neg hov]
          have hlt : z.mant >>> s + 1 < 2 ^ z.prec := lt_of_le_of_ne hqlt hov
          have hbq1 : bitLen (z.mant >>> s + 1) = z.prec := by
            have := bitLen_eq_of (k := z.prec - 1) (n := z.mant >>> s + 1) (by omega)
              (by rwa [Nat.sub_add_cancel hp])
            omega
          refine ⟨rfl, rfl, rfl, hacc, Or.inl ⟨hf, by simp, ?_, Or.inl ⟨rfl, ?_⟩, ?_⟩⟩
          · rw [mag_eq]; simp only [hbq1, hN]; push_cast; rfl
          · rw [hN]; exact_mod_cast hlt
          · exact fits_of_bitLen (by simp only [hbq1]; omega)

end BigFloat
end GoFloat
