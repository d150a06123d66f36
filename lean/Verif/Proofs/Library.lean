import Verif.Proofs.SplitMode
import Verif.Proofs.Conv
import Verif.Model.BigText
import Verif.Spec.BigResult
/-
The stand-ins for `math/big.Float` against its documentation: rounding in every mode, with the limits of the exponent
and the reported accuracy.
-/
namespace GoFloat
open Spec
namespace BigFloat

/-- `Float.round` in every mode: the step taken, the accuracy, and when it overflows. -/
theorem round_full {z : BigFloat} (hf : z.form = .finite) (hm : 0 < z.mant) (hp : 1 ≤ z.prec) :
    ∃ (q N : ℕ) (r : ℚ), 2 ^ (z.prec - 1) ≤ q ∧ q < 2 ^ z.prec ∧ 0 ≤ r ∧ r < 1 ∧ z.mag = (q + r) * (2 : ℚ) ^ (z.exp - z.prec) ∧
      Step z.mode z.neg q r N ∧
      (r = 0 → z.round.acc = .exact) ∧ (0 < r → z.round.acc = makeAcc (decide (N = q + 1) != z.neg)) ∧
      (z.round.form = .finite ∧ z.round.mag = N * (2 : ℚ) ^ (z.exp - z.prec) ∨
        z.round.form = .inf ∧ MaxExp ≤ z.exp ∧ N = 2 ^ z.prec ∧ 0 < r) := by
  by_cases hL : bitLen z.mant ≤ z.prec
  · have hr : z.round = { z with acc := .exact } := by
      unfold round; rw [hf]; simp only; rw [if_pos hL]
    obtain ⟨d, hd⟩ : ∃ d, z.prec = bitLen z.mant + d := ⟨z.prec - bitLen z.mant, by omega⟩
    have hmag : z.mag = ((z.mant * 2 ^ d : ℕ) : ℚ) * (2 : ℚ) ^ (z.exp - z.prec) := by
      rw [mag_eq]
      push_cast
      rw [mul_assoc, ← zpow_natCast, ← zpow_add₀ (by norm_num)]
      congr 2; omega
    refine ⟨z.mant * 2 ^ d, z.mant * 2 ^ d, 0, ?_, ?_, le_rfl, by norm_num, by rw [add_zero]; exact hmag, ⟨Or.inl rfl, fun _ => rfl, fun h => absurd h (lt_irrefl _)⟩, fun _ => by rw [hr], fun h => absurd h (lt_irrefl _), Or.inl ⟨by rw [hr]; exact hf, ?_⟩⟩
    · have h1 := two_pow_le_of_pos hm
      have hb : 1 ≤ bitLen z.mant := by
        by_contra hc
        have := lt_two_pow_bitLen z.mant
        rw [show bitLen z.mant = 0 by omega] at this
        omega
      rw [hd, show bitLen z.mant + d - 1 = bitLen z.mant - 1 + d by omega, pow_add]
      exact Nat.mul_le_mul_right _ h1
    · rw [hd, pow_add]
      exact Nat.mul_lt_mul_of_pos_right (lt_two_pow_bitLen z.mant) (Nat.two_pow_pos d)
    · rw [hr]; exact hmag
  · push Not at hL
    obtain ⟨s, hs⟩ : ∃ s, bitLen z.mant = z.prec + s := ⟨bitLen z.mant - z.prec, by omega⟩
    have hs1 : 1 ≤ s := by omega
    have hss : bitLen z.mant - z.prec = s := by omega
    set q := z.mant >>> s with hq
    have hqlt : q < 2 ^ z.prec := by
      rw [hq, Nat.shiftRight_eq_div_pow, Nat.div_lt_iff_lt_mul (Nat.two_pow_pos s), ← pow_add, ← hs]
      exact lt_two_pow_bitLen _
    have hqge : 2 ^ (z.prec - 1) ≤ q := by
      rw [hq, Nat.shiftRight_eq_div_pow, Nat.le_div_iff_mul_le (Nat.two_pow_pos s), ← pow_add]
      have := two_pow_le_of_pos hm
      rwa [show z.prec - 1 + s = bitLen z.mant - 1 by omega]
    have hbl : ∀ {n}, 2 ^ (z.prec - 1) ≤ n → n < 2 ^ z.prec → bitLen n = z.prec := by
      intro n h1 h2
      have := bitLen_eq_of (k := z.prec - 1) h1 (by rwa [Nat.sub_add_cancel hp])
      omega
    have hdm := Nat.div_add_mod z.mant (2 ^ s)
    have hmodlt := Nat.mod_lt z.mant (Nat.two_pow_pos s)
    set r : ℚ := ((z.mant % 2 ^ s : ℕ) : ℚ) / 2 ^ s with hr
    have hr0 : 0 ≤ r := by positivity
    have hr1 : r < 1 := by rw [hr, div_lt_one (by positivity)]; exact_mod_cast hmodlt
    have hmag : z.mag = (q + r) * 2 ^ (z.exp - z.prec) := by
      rw [mag_eq]
      have h1 : (z.mant : ℚ) = (q + r) * 2 ^ s := by
        rw [hr, add_mul, div_mul_cancel₀ _ (by positivity), hq, Nat.shiftRight_eq_div_pow]
        have : (z.mant : ℚ) = 2 ^ s * ((z.mant / 2 ^ s : ℕ) : ℚ) + ((z.mant % 2 ^ s : ℕ) : ℚ) := by
          exact_mod_cast hdm.symm
        rw [mul_comm ((z.mant / 2 ^ s : ℕ) : ℚ)]; exact this
      rw [h1, mul_assoc, ← zpow_natCast, ← zpow_add₀ (by norm_num)]
      congr 2; omega
    have hmagn : ∀ {n : ℕ} (a : Accuracy), 2 ^ (z.prec - 1) ≤ n → n < 2 ^ z.prec →
        ({ z with acc := a, form := .finite, mant := n } : BigFloat).mag = n * 2 ^ (z.exp - z.prec) := by
      intro n a h1 h2
      rw [mag_eq]; simp only; rw [hbl h1 h2]
    have hmod : z.mant % 2 ^ s = (if z.mant.testBit (s - 1) then 2 ^ (s - 1) else 0) + z.mant % 2 ^ (s - 1) := by
      obtain ⟨u, rfl⟩ : ∃ u, s = u + 1 := ⟨s - 1, by omega⟩
      simp only [Nat.add_sub_cancel]
      rw [Nat.mod_pow_succ, Nat.testBit_eq_decide_div_mod_eq]
      rcases Nat.mod_two_eq_zero_or_one (z.mant / 2 ^ u) with h | h <;> simp [h, Nat.add_comm]
    have hlow := Nat.mod_lt z.mant (Nat.two_pow_pos (s - 1))
    have hP : (2 : ℕ) ^ s = 2 * 2 ^ (s - 1) := by rw [← pow_succ']; congr 1; omega
    -- the remainder, the rounding bit and the sticky bit
    have rz : r = 0 ↔ z.mant % 2 ^ s = 0 := by
      rw [hr, div_eq_zero_iff]
      constructor
      · rintro (h | h)
        · exact_mod_cast h
        · exact absurd h (by positivity)
      · intro h; left; exact_mod_cast h
    have rlt : r < 1 / 2 ↔ z.mant % 2 ^ s < 2 ^ (s - 1) := by
      rw [hr, div_lt_iff₀ (by positivity)]
      have : (1 : ℚ) / 2 * 2 ^ s = ((2 ^ (s - 1) : ℕ) : ℚ) := by
        have : ((2 : ℚ)) ^ s = 2 * 2 ^ (s - 1) := by exact_mod_cast hP
        rw [this]; push_cast; ring
      rw [this, Nat.cast_lt]
    have rgt : 1 / 2 < r ↔ 2 ^ (s - 1) < z.mant % 2 ^ s := by
      rw [hr, lt_div_iff₀ (by positivity)]
      have : (1 : ℚ) / 2 * 2 ^ s = ((2 ^ (s - 1) : ℕ) : ℚ) := by
        have : ((2 : ℚ)) ^ s = 2 * 2 ^ (s - 1) := by exact_mod_cast hP
        rw [this]; push_cast; ring
      rw [this, Nat.cast_lt]
    have req : r = 1 / 2 ↔ z.mant % 2 ^ s = 2 ^ (s - 1) := by
      constructor
      · intro h
        have h1 := mt rlt.2 (by rw [h]; exact lt_irrefl _)
        have h2 := mt rgt.2 (by rw [h]; exact lt_irrefl _)
        omega
      · intro h
        have h1 := mt rlt.1 (by omega)
        have h2 := mt rgt.1 (by omega)
        linarith
    set rbit := z.mant.testBit (s - 1) with hrb
    set sbit := (z.mant % 2 ^ (s - 1) != 0) with hsb
    have hsb' : sbit = true ↔ z.mant % 2 ^ (s - 1) ≠ 0 := by rw [hsb]; simp
    have hpow := Nat.two_pow_pos (s - 1)
    by_cases hex : z.mant % 2 ^ s = 0
    · have hrf : rbit = false := by
        cases hb : rbit with
        | false => rfl
        | true => rw [hb] at hmod; simp at hmod; omega
      have hsf : sbit = false := by
        cases hb : sbit with
        | false => rfl
        | true => exact absurd (hsb'.1 hb) (by rw [hrf] at hmod; simp at hmod; omega)
      have hround : z.round = { z with acc := .exact, mant := q } := by
        unfold round; rw [hf]; simp only; rw [if_neg (by omega), hss, ← hrb, ← hsb, hrf, hsf]; simp [hq]
      refine ⟨q, q, r, hqge, hqlt, hr0, hr1, hmag, ⟨Or.inl rfl, fun _ => rfl, fun h => absurd (rz.2 hex) h.ne'⟩, fun _ => by rw [hround], fun h => absurd (rz.2 hex) h.ne', Or.inl ?_⟩
      rw [hround]
      refine ⟨hf, ?_⟩
      have := hmagn .exact hqge hqlt
      rw [← this, hf]
    · have hr0' : 0 < r := lt_of_le_of_ne hr0 (fun h => hex (rz.1 h.symm))
      have hcond : (!rbit && !sbit) = false := by
        cases hb : rbit with
        | true => rfl
        | false =>
          cases hb' : sbit with
          | true => rfl
          | false =>
            have : ¬ z.mant % 2 ^ (s - 1) ≠ 0 := fun h => by rw [hsb'.2 h] at hb'; cases hb'
            rw [hb] at hmod; simp at hmod; omega
      set inc := roundInc z.mode z.neg rbit sbit (q.testBit 0) with hinc
      have hround : z.round = (if inc then
          if q + 1 = 2 ^ z.prec then
            if z.exp ≥ MaxExp then { z with acc := makeAcc (inc != z.neg), form := .inf }
            else { z with acc := makeAcc (inc != z.neg), mant := 2 ^ (z.prec - 1), exp := z.exp + 1 }
          else { z with acc := makeAcc (inc != z.neg), mant := q + 1 }
        else { z with acc := makeAcc (inc != z.neg), mant := q }) := by
        unfold round
        rw [hf]
        simp only
        rw [if_neg (by omega), hss, ← hq, ← hrb, ← hsb, hcond, ← hinc]
        simp only [Bool.false_eq_true, if_false]
      have hq2 : q % 2 = 0 ∨ q % 2 = 1 := by omega
      have hlsb : q.testBit 0 = decide (q % 2 = 1) := by rw [Nat.testBit_zero]
      refine ⟨q, if inc then q + 1 else q, r, hqge, hqlt, hr0, hr1, hmag, ⟨by split <;> simp, fun h => absurd h hr0'.ne', fun _ => ?_⟩, fun h => absurd h hr0'.ne', fun _ => ?_, ?_⟩
      · have hrbit : rbit = decide (2 ^ (s - 1) ≤ z.mant % 2 ^ s) := by
          cases hb : rbit with
          | true => rw [hb] at hmod; simp at hmod; symm; rw [decide_eq_true_eq]; omega
          | false => rw [hb] at hmod; simp at hmod; symm; rw [decide_eq_false_iff_not]; omega
        have hsbit : rbit = true → (sbit = decide (z.mant % 2 ^ s ≠ 2 ^ (s - 1))) := by
          intro hb
          rw [hb] at hmod; simp at hmod
          rw [Bool.eq_iff_iff, hsb', decide_eq_true_eq]
          omega
        cases hmode : z.mode <;> simp only <;> rw [hmode] at hinc
        · -- to nearest even
          refine ⟨fun h => ?_, fun h => ?_, fun h => ?_⟩
          · rw [rlt] at h
            rw [show inc = false by rw [hinc]; unfold roundInc; simp only; rw [hrbit, decide_eq_false (by omega)]; rfl]
            rfl
          · rw [rgt] at h
            have hb : rbit = true := by rw [hrbit, decide_eq_true (by omega)]
            rw [show inc = true by rw [hinc]; unfold roundInc; simp only; rw [hsbit hb, hb, decide_eq_true (by omega)]; rfl]
            rfl
          · rw [req] at h
            have hb : rbit = true := by rw [hrbit, decide_eq_true (by omega)]
            rw [show inc = decide (q % 2 = 1) by rw [hinc]; unfold roundInc; simp only; rw [hsbit hb, hb, decide_eq_false (by omega), hlsb]; rfl]
            rcases hq2 with h2 | h2
            · rw [decide_eq_false (by omega)]; exact h2
            · rw [decide_eq_true h2]; show (q + 1) % 2 = 0; omega
        · refine ⟨fun h => ?_, fun h => ?_⟩
          · rw [rlt] at h
            rw [show inc = false by rw [hinc]; unfold roundInc; simp only; rw [hrbit, decide_eq_false (by omega)]]
            rfl
          · have h : ¬ r < 1 / 2 := not_lt.2 h
            rw [rlt] at h
            rw [show inc = true by rw [hinc]; unfold roundInc; simp only; rw [hrbit, decide_eq_true (by omega)]]
            rfl
        · rw [show inc = false from hinc]; rfl
        · rw [show inc = true from hinc]; rfl
        · rw [show inc = z.neg from hinc]
        · rw [show inc = !z.neg from hinc]; cases z.neg <;> rfl
      · have hd : decide ((if inc = true then q + 1 else q) = q + 1) = inc := by cases inc <;> simp
        rw [hround, hd]
        split
        · split
          · split <;> rfl
          · rfl
        · rfl
      · rw [hround]
        cases inc with
        | false =>
          simp only [Bool.false_eq_true, if_false]
          exact Or.inl ⟨hf, by have := hmagn (makeAcc (false != z.neg)) hqge hqlt; rw [← this, hf]⟩
        | true =>
          simp only [if_true]
          by_cases hov : q + 1 = 2 ^ z.prec
          · rw [if_pos hov]
            by_cases hE : z.exp ≥ MaxExp
            · rw [if_pos hE]
              exact Or.inr ⟨rfl, hE, hov, hr0'⟩
            · rw [if_neg hE]
              refine Or.inl ⟨hf, ?_⟩
              rw [mag_eq]
              simp only
              rw [bitLen_two_pow, Nat.sub_add_cancel hp, hov, Nat.cast_pow, Nat.cast_pow, ← zpow_natCast, ← zpow_natCast,
                Nat.cast_ofNat, ← zpow_add₀ (by norm_num), ← zpow_add₀ (by norm_num)]
              congr 1; omega
          · rw [if_neg hov]
            refine Or.inl ⟨hf, ?_⟩
            have := hmagn (n := q + 1) (makeAcc (true != z.neg)) (by omega) (by omega)
            rw [← this, hf]


/-- The remainder matters only by its position among 0, the half and 1. -/
theorem _root_.GoFloat.Step.congr {mode : RoundingMode} {neg : Bool} {q N : ℕ} {r r' : ℚ} (h0 : 0 ≤ r) (hz : r = 0 ↔ r' = 0)
    (hlt : r < 1 / 2 ↔ r' < 1 / 2) (heq : r = 1 / 2 ↔ r' = 1 / 2) (h : Step mode neg q r N) : Step mode neg q r' N := by
  obtain ⟨a, b, c⟩ := h
  refine ⟨a, fun h => b (hz.2 h), fun h => ?_⟩
  have c := c (lt_of_le_of_ne h0 (fun h1 => h.ne (hz.1 h1.symm).symm))
  have hge : 1 / 2 ≤ r' → 1 / 2 ≤ r := fun h => not_lt.1 (fun h1 => absurd (hlt.1 h1) (not_lt.2 h))
  have hgt : 1 / 2 < r' → 1 / 2 < r := fun h => lt_of_le_of_ne (hge h.le) (fun h1 => h.ne (heq.1 h1.symm).symm)
  cases mode <;> simp only at c ⊢
  · exact ⟨fun h => c.1 (hlt.2 h), fun h => c.2.1 (hgt h), fun h => c.2.2 (heq.2 h)⟩
  · exact ⟨fun h => c.1 (hlt.2 h), fun h => c.2 (hge h)⟩
  · exact c
  · exact c
  · exact c
  · exact c

/-- `Float.round` of a number that stands for the number `v`, of which it keeps enough. -/
theorem round_sticky {z : BigFloat} {v : ℚ} (hf : z.form = .finite) (hm : 0 < z.mant) (hp1 : 1 ≤ z.prec) (hp2 : z.prec ≤ MaxPrec)
    (h1 : MinExp ≤ z.exp) (h2 : z.exp ≤ MaxExp)
    (hv : ∀ (q : ℕ) (r : ℚ), 0 ≤ r → r < 1 → z.mag = (q + r) * (2 : ℚ) ^ (z.exp - z.prec) → ∃ r' : ℚ, 0 ≤ r' ∧ r' < 1 ∧
      v = (q + r') * (2 : ℚ) ^ (z.exp - z.prec) ∧ (r = 0 ↔ r' = 0) ∧ (r < 1 / 2 ↔ r' < 1 / 2) ∧ (r = 1 / 2 ↔ r' = 1 / 2)) :
    BigResult z.mode z.prec z.neg (signed z.neg v) z.round := by
  obtain ⟨a1, a2, a3, a4⟩ := round_any hf hm hp1
  obtain ⟨q, N, r, q1, q2, r0, r1, hmag, hstep, acc0, acc1, hres⟩ := round_full hf hm hp1
  obtain ⟨r', s0, s1, hmag', k1, k2, k3⟩ := hv q r r0 r1 hmag
  have hstep := hstep.congr r0 k1 k2 k3
  have hu : (0 : ℚ) < 2 ^ (z.exp - z.prec) := zpow_pos (by norm_num) _
  have hspec := step_spec (j := z.exp - z.prec) hp1 q1 q2 s0 s1 hstep
  rw [← hmag'] at hspec
  have hpos : 0 < r' → 0 < r := fun h => lt_of_le_of_ne r0 (fun h1 => h.ne (k1.1 h1.symm).symm)
  refine ⟨a2, a3, a1, ⟨by rw [a2]; exact hp2, ?_, ?_, ?_, fun _ => by rw [a2]; exact hp1, ?_⟩, ?_⟩
  · intro h; rcases a4 with b | b
    · exact b.2.1
    · rw [b.1] at h; cases h
  · intro h; rcases a4 with b | b
    · rcases b.2.2.2.1 with c | c <;> omega
    · rw [b.1] at h; cases h
  · intro h; rcases a4 with b | b
    · rcases b.2.2.2.1 with c | c <;> omega
    · rw [b.1] at h; cases h
  · intro h; rcases a4 with b | b
    · rw [a2]; exact b.2.2.2.2
    · rw [b.1] at h; cases h
  · rcases hres with ⟨f1, f2⟩ | ⟨g1, g2, g3, g4⟩
    · left
      have hsv : z.round.sval = signed z.neg (N * 2 ^ (z.exp - z.prec)) := by rw [sval_finite f1, a1, f2]
      refine ⟨f1, by rw [hsv]; exact hspec, ?_⟩
      rw [hsv, hmag']
      rcases s0.eq_or_lt with h | h
      · rw [acc0 (k1.2 h.symm)]
        show signed _ _ = signed _ _
        rw [← h, add_zero, hstep.2.1 h.symm]
      · rw [acc1 (hpos h)]
        rcases hstep.1 with hN | hN
        · rw [decide_eq_false (by omega), hN]
          have : (q : ℚ) * 2 ^ (z.exp - z.prec) < (q + r') * 2 ^ (z.exp - z.prec) := mul_lt_mul_of_pos_right (by linarith) hu
          cases z.neg
          · exact this
          · exact neg_lt_neg this
        · rw [decide_eq_true hN, hN]
          have : (q + r') * 2 ^ (z.exp - z.prec) < ((q + 1 : ℕ) : ℚ) * 2 ^ (z.exp - z.prec) :=
            mul_lt_mul_of_pos_right (by push_cast; linarith) hu
          cases z.neg
          · exact this
          · exact neg_lt_neg this
    · right; right
      have hN : (N : ℚ) * 2 ^ (z.exp - z.prec) = 2 ^ MaxExp := by
        rw [g3, Nat.cast_pow, Nat.cast_ofNat, ← zpow_natCast, ← zpow_add₀ (by norm_num)]
        congr 1; omega
      refine ⟨g1, ?_, Or.inr (by rw [← hN]; exact hspec)⟩
      rw [acc1 g4, decide_eq_true (by rcases hstep.1 with h | h <;> omega)]
      cases z.neg <;> rfl

theorem round_big {z : BigFloat} (hf : z.form = .finite) (hm : 0 < z.mant) (hp1 : 1 ≤ z.prec) (hp2 : z.prec ≤ MaxPrec)
    (h1 : MinExp ≤ z.exp) (h2 : z.exp ≤ MaxExp) : BigResult z.mode z.prec z.neg (signed z.neg z.mag) z.round :=
  round_sticky hf hm hp1 hp2 h1 h2 fun _ r h0 h1 h => ⟨r, h0, h1, h, Iff.rfl, Iff.rfl, Iff.rfl⟩

/-- An integer `m` that stands for a number `v`: it lies on the same side of every even integer. -/
def Sticky (m : ℕ) (v : ℚ) : Prop := ∀ g : ℕ, ((m : ℚ) < 2 * g ↔ v < 2 * g) ∧ ((m : ℚ) = 2 * g ↔ v = 2 * g)

theorem setExpAndRound_sticky {z : BigFloat} {m : ℕ} {v : ℚ} (hs : Sticky m v) {e : ℤ} (hp1 : 1 ≤ z.prec) (hp2 : z.prec ≤ MaxPrec)
    (hb : z.prec + 2 ≤ bitLen m) :
    BigResult z.mode z.prec z.neg (signed z.neg (v * 2 ^ e)) (setExpAndRound { z with mant := m } (e + bitLen m)) := by
  have hm : 0 < m := by
    rcases Nat.eq_zero_or_pos m with h | h
    · rw [h] at hb; simp [bitLen] at hb
    · exact h
  set y : BigFloat := { z with mant := m, form := .finite, exp := e + bitLen m } with hy
  have he : (0 : ℚ) < 2 ^ e := zpow_pos (by norm_num) _
  have hmag : y.mag = m * 2 ^ e := by
    rw [mag_eq]; simp only [hy]; congr 2; ring
  have hge : ∀ g : ℕ, 2 * (g : ℚ) ≤ m → 2 * (g : ℚ) ≤ v := fun g h => not_lt.1 (fun h1 => absurd ((hs g).1.2 h1) (not_lt.2 h))
  obtain ⟨b, hb'⟩ : ∃ b, bitLen m = b + 2 := ⟨bitLen m - 2, by omega⟩
  have hlo : (2 : ℚ) ^ (e + bitLen m - 1) ≤ v * 2 ^ e := by
    have h1 : 2 * ((2 ^ b : ℕ) : ℚ) ≤ m := by
      have := two_pow_le_of_pos hm
      rw [hb', show b + 2 - 1 = b + 1 by omega, pow_succ] at this
      exact_mod_cast (by omega : 2 * 2 ^ b ≤ m)
    have h2 := mul_le_mul_of_nonneg_right (hge _ h1) he.le
    refine le_trans (le_of_eq ?_) h2
    rw [hb', show e + ((b + 2 : ℕ) : ℤ) - 1 = 1 + (b : ℤ) + e by push_cast; ring, zpow_add₀ (by norm_num), zpow_add₀ (by norm_num)]
    push_cast; rw [zpow_natCast]
  have hhi : v * 2 ^ e < (2 : ℚ) ^ (e + bitLen m) := by
    have h1 : (m : ℚ) < 2 * ((2 ^ (b + 1) : ℕ) : ℚ) := by
      have := lt_two_pow_bitLen m
      rw [hb', pow_succ] at this
      exact_mod_cast (by omega : m < 2 * 2 ^ (b + 1))
    have h2 := mul_lt_mul_of_pos_right ((hs _).1.1 h1) he
    refine lt_of_lt_of_eq h2 ?_
    rw [hb', show e + ((b + 2 : ℕ) : ℤ) = 1 + ((b + 1 : ℕ) : ℤ) + e by push_cast; ring, zpow_add₀ (by norm_num), zpow_add₀ (by norm_num)]
    rw [zpow_natCast]; push_cast; rfl
  have habs : |signed z.neg (v * 2 ^ e)| = v * 2 ^ e :=
    signed_abs ((zpow_pos (by norm_num : (0 : ℚ) < 2) _).le.trans hlo)
  unfold setExpAndRound
  by_cases h1 : e + bitLen m < MinExp
  · rw [if_pos h1]
    refine ⟨rfl, rfl, rfl, ⟨hp2, by simp, by simp, by simp, by simp, by simp⟩, Or.inr (Or.inl ⟨rfl, rfl, ?_⟩)⟩
    rw [habs]
    exact hhi.trans_le (zpow_le_zpow_right₀ (by norm_num) (by omega))
  · rw [if_neg h1]
    by_cases h2 : e + bitLen m > MaxExp
    · rw [if_pos h2]
      refine ⟨rfl, rfl, rfl, ⟨hp2, by simp, by simp, by simp, by simp, by simp⟩, Or.inr (Or.inr ⟨rfl, rfl, Or.inl ?_⟩)⟩
      rw [habs]
      exact (zpow_le_zpow_right₀ (by norm_num) (by omega)).trans hlo
    · rw [if_neg h2]
      refine round_sticky (z := y) rfl hm hp1 hp2 (by show _ ≤ e + bitLen m; omega) (by show e + bitLen m ≤ _; omega) fun q r h0 h1 h => ?_
      obtain ⟨s, hs'⟩ : ∃ s : ℕ, bitLen m = z.prec + (s + 2) := ⟨bitLen m - z.prec - 2, by omega⟩
      have hu : (2 : ℚ) ^ (y.exp - y.prec) = 2 ^ (s + 2) * 2 ^ e := by
        rw [← zpow_natCast, ← zpow_add₀ (by norm_num)]
        congr 1; show e + (bitLen m : ℤ) - z.prec = _; rw [hs']; push_cast; ring
      have hmq : (m : ℚ) = (q + r) * 2 ^ (s + 2) := by
        rw [hmag, hu, ← mul_assoc] at h
        exact mul_right_cancel₀ he.ne' h
      have hS : (0 : ℚ) < 2 ^ (s + 2) := by positivity
      have hS2 : (2 : ℚ) ^ (s + 2) = 4 * 2 ^ s := by rw [pow_add]; ring
      -- the even integers at the remainders 0, the half and 1
      have g0 := hs (2 * q * 2 ^ s)
      have g1 := hs ((2 * q + 1) * 2 ^ s)
      have g2 := hs ((2 * q + 2) * 2 ^ s)
      push_cast at g0 g1 g2
      have hvq : v = (q + (v / 2 ^ (s + 2) - q)) * 2 ^ (s + 2) := by
        rw [add_sub_cancel, div_mul_cancel₀ _ hS.ne']
      set r' := v / 2 ^ (s + 2) - q with hr'
      rw [hmq, hvq, hS2] at g0 g1 g2
      have hT : (0 : ℚ) < 2 ^ s := by positivity
      have cmp : ∀ a t : ℚ, ((q + a) * (4 * 2 ^ s) < 2 * ((2 * q + t) * 2 ^ s) ↔ a < t / 2) ∧
          ((q + a) * (4 * 2 ^ s) = 2 * ((2 * q + t) * 2 ^ s) ↔ a = t / 2) := by
        intro a t
        have h1 : (q + a) * (4 * 2 ^ s) - 2 * ((2 * q + t) * 2 ^ s) = (4 * 2 ^ s) * (a - t / 2) := by ring
        have h4 : (0 : ℚ) < 4 * 2 ^ s := by positivity
        constructor
        · rw [← sub_neg, h1, ← sub_neg (a := a)]; constructor <;> intro h <;> nlinarith
        · rw [← sub_eq_zero, h1, mul_eq_zero, sub_eq_zero]
          simp [h4.ne']
      rw [show (2 : ℚ) * q * 2 ^ s = (2 * q + 0) * 2 ^ s by ring, (cmp r 0).1, (cmp r 0).2, (cmp r' 0).1, (cmp r' 0).2] at g0
      rw [(cmp r 1).1, (cmp r 1).2, (cmp r' 1).1, (cmp r' 1).2] at g1
      rw [(cmp r 2).1, (cmp r 2).2, (cmp r' 2).1, (cmp r' 2).2] at g2
      norm_num at g0 g2
      refine ⟨r', ?_, g2.1.1 h1, ?_, g0.2, g1.1, g1.2⟩
      · exact not_lt.1 (fun h => absurd (g0.1.2 h) (not_lt.2 h0))
      · rw [hu, ← mul_assoc, ← hvq]

theorem setExpAndRound_big {z : BigFloat} {m : ℕ} (hm : 0 < m) {e : ℤ} (hp1 : 1 ≤ z.prec) (hp2 : z.prec ≤ MaxPrec) :
    BigResult z.mode z.prec z.neg (signed z.neg (m * 2 ^ e)) (setExpAndRound { z with mant := m } (e + bitLen m)) := by
  set y : BigFloat := { z with mant := m, form := .finite, exp := e + bitLen m } with hy
  have hmag : y.mag = m * 2 ^ e := by
    rw [mag_eq]; simp only [hy]; congr 2; ring
  have habs : |signed z.neg (m * 2 ^ e)| = y.mag := by rw [← hmag]; exact signed_abs (mag_pos (x := y) hm).le
  unfold setExpAndRound
  by_cases h1 : e + bitLen m < MinExp
  · rw [if_pos h1]
    refine ⟨rfl, rfl, rfl, ⟨hp2, by simp, by simp, by simp, by simp, by simp⟩, Or.inr (Or.inl ⟨rfl, rfl, ?_⟩)⟩
    rw [habs]
    exact (mag_lt y).trans_le (zpow_le_zpow_right₀ (by norm_num) (by show e + bitLen m ≤ _; omega))
  · rw [if_neg h1]
    by_cases h2 : e + bitLen m > MaxExp
    · rw [if_pos h2]
      refine ⟨rfl, rfl, rfl, ⟨hp2, by simp, by simp, by simp, by simp, by simp⟩, Or.inr (Or.inr ⟨rfl, rfl, Or.inl ?_⟩)⟩
      rw [habs]
      exact (zpow_le_zpow_right₀ (by norm_num) (by show _ ≤ e + bitLen m - 1; omega)).trans (le_mag (x := y) hm)
    · rw [if_neg h2, ← hmag]
      exact round_big (z := y) rfl hm hp1 hp2 (by show _ ≤ e + bitLen m; omega) (by show e + bitLen m ≤ _; omega)

/-- A number that fits is its own rounding. -/
theorem bigResult_self {x : BigFloat} (hx : x.WF) (hf : x.form = .finite) (hacc : x.acc = .exact) :
    BigResult x.mode x.prec x.neg (signed x.neg x.mag) x := by
  refine ⟨rfl, rfl, rfl, hx, Or.inl ⟨hf, ?_, ?_⟩⟩
  · rw [sval_finite hf]
    refine roundsToBitsIn_self ?_
    obtain ⟨K, hK, hK2⟩ := Float128ppc.sval_multiple hx hf (p := x.prec) le_rfl
    cases x.neg
    · exact ⟨K, x.exp - x.prec, by rw [abs_of_nonneg (by positivity)]; exact_mod_cast hK2, hK⟩
    · refine ⟨-K, x.exp - x.prec, by rw [abs_neg, abs_of_nonneg (by positivity)]; exact_mod_cast hK2, ?_⟩
      simp only [signed, if_true]
      rw [hK]; push_cast; ring
  · rw [hacc, sval_finite hf]; rfl

theorem setPrec_big {x : BigFloat} (hx : x.WF) (hf : x.form = .finite) {p : ℕ} (hp : 1 ≤ p) :
    BigResult x.mode (min p MaxPrec) x.neg x.sval (x.setPrec p) := by
  have hP : 1 ≤ min p MaxPrec := le_min hp (by decide)
  rw [sval_finite hf]
  unfold setPrec
  rw [if_neg (by omega)]
  simp only
  by_cases h : min p MaxPrec < x.prec
  · rw [if_pos h]
    exact round_big (z := { x with prec := min p MaxPrec }) hf (hx.mant_pos hf) hP (min_le_right _ _) (hx.exp_ge hf) (hx.exp_le hf)
  · rw [if_neg h]
    exact bigResult_self (x := { x with prec := min p MaxPrec, acc := .exact })
      (hx.widen (min_le_right _ _) (by omega) x.mode .exact) hf rfl

theorem set_big {z x : BigFloat} (hx : x.WF) (hf : x.form = .finite) (hp1 : 1 ≤ z.prec) (hp2 : z.prec ≤ MaxPrec) :
    BigResult z.mode z.prec x.neg x.sval (set z x) := by
  rw [sval_finite hf]
  unfold set
  simp only [hf, if_true]
  rw [if_neg (by omega)]
  by_cases h : z.prec < x.prec
  · rw [if_pos h]
    exact round_big (z := { z with acc := .exact, form := .finite, neg := x.neg, mant := x.mant, exp := x.exp }) rfl (hx.mant_pos hf) hp1 hp2
      (hx.exp_ge hf) (hx.exp_le hf)
  · rw [if_neg h]
    have hw : ({ z with acc := .exact, form := .finite, neg := x.neg, mant := x.mant, exp := x.exp } : BigFloat).WF := by
      refine ⟨hp2, fun _ => hx.mant_pos hf, fun _ => hx.exp_ge hf, fun _ => hx.exp_le hf, fun _ => hp1, fun _ => ?_⟩
      obtain ⟨k, j, h1, h2⟩ := hx.fits hf
      exact ⟨k, j, h1, h2.trans_le (Nat.pow_le_pow_right (by norm_num) (by show x.prec ≤ z.prec; omega))⟩
    exact bigResult_self hw rfl rfl

theorem uadd_big {z x y : BigFloat} (hx : 0 < x.mant) (hp1 : 1 ≤ z.prec) (hp2 : z.prec ≤ MaxPrec) :
    BigResult z.mode z.prec z.neg (signed z.neg (x.mag + y.mag)) (uadd z x y) := by
  unfold uadd
  obtain ⟨h1, h2⟩ := aligned (x := x) (y := y)
  simp only at h1 h2 ⊢
  set ex : ℤ := x.exp - bitLen x.mant
  set ey : ℤ := y.exp - bitLen y.mant
  set m := x.mant <<< (ex - min ex ey).toNat + y.mant <<< (ey - min ex ey).toNat with hm
  have hsum : (m : ℚ) * 2 ^ min ex ey = x.mag + y.mag := by rw [← h1, ← h2, hm, Nat.cast_add, add_mul]
  have hm0 : 0 < m := by
    have : 0 < x.mant <<< (ex - min ex ey).toNat := by rw [Nat.shiftLeft_eq]; positivity
    rw [hm]; exact Nat.add_pos_left this _
  rw [← hsum]
  exact setExpAndRound_big hm0 hp1 hp2

theorem usub_big {z x y : BigFloat} (hp1 : 1 ≤ z.prec) (hp2 : z.prec ≤ MaxPrec) (hle : y.mag ≤ x.mag) :
    (x.mag - y.mag = 0 → usub z x y = { z with acc := .exact, form := .zero, neg := false, mant := z.mant }) ∧
    (x.mag - y.mag ≠ 0 → BigResult z.mode z.prec z.neg (signed z.neg (x.mag - y.mag)) (usub z x y)) := by
  unfold usub
  obtain ⟨h1, h2⟩ := aligned (x := x) (y := y)
  simp only at h1 h2 ⊢
  set ex : ℤ := x.exp - bitLen x.mant
  set ey : ℤ := y.exp - bitLen y.mant
  have hpos : (0 : ℚ) < 2 ^ min ex ey := by positivity
  have hle' : y.mant <<< (ey - min ex ey).toNat ≤ x.mant <<< (ex - min ex ey).toNat := by
    rw [← h1, ← h2, mul_le_mul_iff_left₀ hpos] at hle; exact_mod_cast hle
  set m := x.mant <<< (ex - min ex ey).toNat - y.mant <<< (ey - min ex ey).toNat with hm
  have hsum : (m : ℚ) * 2 ^ min ex ey = x.mag - y.mag := by rw [← h1, ← h2, hm, Nat.cast_sub hle', sub_mul]
  constructor
  · intro h
    have : m = 0 := by
      rw [h] at hsum
      rcases mul_eq_zero.1 hsum with h | h
      · exact_mod_cast h
      · exact absurd h hpos.ne'
    rw [if_pos this]
  · intro h
    have hm0 : m ≠ 0 := by
      intro h0; rw [h0] at hsum; simp at hsum; exact h hsum.symm
    rw [if_neg hm0, ← hsum]
    exact setExpAndRound_big (Nat.pos_of_ne_zero hm0) hp1 hp2

theorem mul_big {z x y : BigFloat} (hx : 0 < x.mant) (hy : 0 < y.mant) (hp1 : 1 ≤ z.prec) (hp2 : z.prec ≤ MaxPrec) :
    BigResult z.mode z.prec (x.neg != y.neg) (signed (x.neg != y.neg) (x.mag * y.mag)) (z.mul x y) := by
  have hv : x.mag * y.mag = ((x.mant * y.mant : ℕ) : ℚ) * 2 ^ (x.exp - bitLen x.mant + (y.exp - bitLen y.mant)) := by
    rw [mag_eq, mag_eq, zpow_add₀ (by norm_num)]
    push_cast
    ring
  rw [hv]
  exact setExpAndRound_big (z := { z with neg := x.neg != y.neg }) (Nat.mul_pos hx hy) hp1 hp2

theorem quo_big {z x y : BigFloat} (hx : 0 < x.mant) (hy : 0 < y.mant) (hp1 : 1 ≤ z.prec) (hp2 : z.prec ≤ MaxPrec) :
    BigResult z.mode z.prec (x.neg != y.neg) (signed (x.neg != y.neg) (x.mag / y.mag)) (z.quo x y) := by
  unfold quo
  simp only
  set k := z.prec + bitLen y.mant + 1 with hk
  set n := x.mant <<< k with hn
  set m := 2 * (n / y.mant) + (if n % y.mant = 0 then 0 else 1) with hm
  set e : ℤ := x.exp - bitLen x.mant - (y.exp - bitLen y.mant) - k - 1 with he
  have hyq : (0 : ℚ) < y.mant := by exact_mod_cast hy
  have hn' : n = x.mant * 2 ^ k := Nat.shiftLeft_eq _ _
  have hQ : x.mag / y.mag = 2 * ((n : ℚ) / y.mant) * 2 ^ e := by
    rw [mag_eq, mag_eq, hn', he]
    push_cast
    rw [show x.exp - bitLen x.mant - (y.exp - bitLen y.mant) - k - 1 = x.exp - bitLen x.mant - (y.exp - bitLen y.mant) - (k : ℤ) - (1 : ℤ) by ring,
      zpow_sub₀ (by norm_num) _ 1, zpow_sub₀ (by norm_num) _ (k : ℤ), zpow_sub₀ (by norm_num) (x.exp - bitLen x.mant), zpow_natCast, zpow_one]
    have h1 : (2 : ℚ) ^ (y.exp - bitLen y.mant) ≠ 0 := by positivity
    field_simp
  rw [hQ]
  have hdm := Nat.div_add_mod n y.mant
  have hml := Nat.mod_lt n hy
  have hst : Sticky m (2 * ((n : ℚ) / y.mant)) := by
    intro g
    have h1 : (2 * ((n : ℚ) / y.mant) < 2 * g) ↔ n < g * y.mant := by
      rw [mul_lt_mul_iff_right₀ (by norm_num), div_lt_iff₀ hyq]; norm_cast
    have h2 : (2 * ((n : ℚ) / y.mant) = 2 * g) ↔ n = g * y.mant := by
      rw [mul_right_inj' (by norm_num), div_eq_iff hyq.ne']; norm_cast
    have h3 : ((m : ℚ) < 2 * g) ↔ m < 2 * g := by norm_cast
    have h4 : ((m : ℚ) = 2 * g) ↔ m = 2 * g := by norm_cast
    rw [h1, h2, h3, h4]
    have h5 : n < g * y.mant ↔ n / y.mant < g := (Nat.div_lt_iff_lt_mul hy).symm
    have h6 : n = g * y.mant ↔ n / y.mant = g ∧ n % y.mant = 0 := by
      constructor
      · intro h; rw [h]; exact ⟨Nat.mul_div_cancel _ hy, Nat.mul_mod_left _ _⟩
      · rintro ⟨h, h'⟩; rw [h, h'] at hdm; rw [← hdm, mul_comm]; rfl
    rw [h5, h6, hm]
    split <;> omega
  refine setExpAndRound_sticky (z := { z with neg := x.neg != y.neg }) hst hp1 hp2 ?_
  -- enough bits
  have hq : 2 ^ (z.prec + 1) ≤ n / y.mant := by
    rw [Nat.le_div_iff_mul_le hy, hn', hk]
    calc 2 ^ (z.prec + 1) * y.mant ≤ 2 ^ (z.prec + 1) * 2 ^ bitLen y.mant := Nat.mul_le_mul_left _ (lt_two_pow_bitLen y.mant).le
      _ = 2 ^ (z.prec + bitLen y.mant + 1) := by rw [← pow_add]; congr 1; omega
      _ ≤ _ := Nat.le_mul_of_pos_left _ hx
  show z.prec + 2 ≤ bitLen m
  by_contra hc
  have h1 := lt_two_pow_bitLen m
  have h2 : 2 ^ bitLen m ≤ 2 ^ (z.prec + 1) := Nat.pow_le_pow_right (by norm_num) (by omega)
  omega

/-- What `add` does with two finite numbers after the precision is settled. -/
theorem add_finite {z x y : BigFloat} (hx : x.WF) (hy : y.WF) (hxf : x.form = .finite) (hyf : y.form = .finite)
    (hp1 : 1 ≤ z.prec) (hp2 : z.prec ≤ MaxPrec) :
    ∃ r, z.add x y = .ok r ∧
      (x.sval + y.sval = 0 → r.form = .zero ∧ r.acc = .exact ∧ r.prec = z.prec ∧ r.mode = z.mode ∧ r.neg = decide (z.mode = .toNegativeInf)) ∧
      (x.sval + y.sval ≠ 0 → BigResult z.mode z.prec (decide (x.sval + y.sval < 0)) (x.sval + y.sval) r) := by
  unfold add
  rw [if_neg (by omega), hxf, hyf]
  have hmx := mag_pos (hx.mant_pos hxf)
  have hmy := mag_pos (hy.mant_pos hyf)
  rw [sval_finite hxf, sval_finite hyf]
  simp only
  have hnorm : ∀ {s : Bool} {v : ℚ} {r : BigFloat}, BigResult z.mode z.prec s v r →
      BigResult z.mode z.prec s v (if r.form = .zero ∧ r.mode = .toNegativeInf ∧ r.acc = .exact then { r with neg := true } else r) := by
    intro s v r h
    rw [if_neg]
    · exact h
    · rintro ⟨g1, g2, g3⟩
      rcases h.2.2.2.2 with k | k | k
      · rw [k.1] at g1; cases g1
      · rw [k.2.1] at g3; unfold makeAcc at g3; split at g3 <;> cases g3
      · rw [k.1] at g1; cases g1
  have hz : ∀ s m, signed s m = 0 ↔ m = 0 := by intro s m; unfold signed; split <;> simp
  have hsg : ∀ {s : Bool} {m : ℚ}, 0 < m → decide (signed s m < 0) = s := by
    intro s m h
    rw [Bool.eq_iff_iff, decide_eq_true_eq]; exact signed_neg_iff h
  by_cases hs : x.neg = y.neg
  · rw [if_pos hs]
    have hsum : signed x.neg x.mag + signed y.neg y.mag = signed x.neg (x.mag + y.mag) := by
      rw [← hs]; unfold signed; split <;> ring
    have hpos : 0 < x.mag + y.mag := by linarith
    rw [hsum, hsg hpos]
    refine ⟨_, rfl, fun h => absurd ((hz _ _).1 h) hpos.ne', fun _ => ?_⟩
    exact hnorm (uadd_big (z := { z with neg := x.neg }) (y := y) (hx.mant_pos hxf) hp1 hp2)
  · rw [if_neg hs]
    have hyn : y.neg = !x.neg := by cases hh : x.neg <;> cases hh' : y.neg <;> simp_all
    have hsum1 : signed x.neg x.mag + signed y.neg y.mag = signed x.neg (x.mag - y.mag) := by
      rw [hyn]; unfold signed; cases x.neg <;> simp <;> ring
    have hsum2 : signed x.neg x.mag + signed y.neg y.mag = signed (!x.neg) (y.mag - x.mag) := by
      rw [hyn]; unfold signed; cases x.neg <;> simp <;> ring
    by_cases hc : ucmp x y = .gt
    · rw [if_pos hc]
      have hlt : y.mag < x.mag := (ucmp_spec (hx.mant_pos hxf) (hy.mant_pos hyf)).2.1.1 hc
      have hpos : 0 < x.mag - y.mag := by linarith
      rw [hsum1, hsg hpos]
      refine ⟨_, rfl, fun h => absurd ((hz _ _).1 h) hpos.ne', fun _ => ?_⟩
      exact hnorm ((usub_big (z := { z with neg := x.neg }) hp1 hp2 hlt.le).2 hpos.ne')
    · rw [if_neg hc]
      have hle : x.mag ≤ y.mag := by
        by_contra h; exact hc ((ucmp_spec (hx.mant_pos hxf) (hy.mant_pos hyf)).2.1.2 (not_le.1 h))
      rw [hsum2]
      obtain ⟨u1, u2⟩ := usub_big (z := { z with neg := !x.neg }) hp1 hp2 hle
      refine ⟨_, rfl, fun h => ?_, fun h => ?_⟩
      · rw [u1 ((hz _ _).1 h)]
        by_cases hm : z.mode = .toNegativeInf
        · rw [if_pos ⟨rfl, hm, rfl⟩, decide_eq_true hm]
          exact ⟨rfl, rfl, rfl, rfl, rfl⟩
        · rw [if_neg (fun h => hm h.2.1), decide_eq_false hm]
          exact ⟨rfl, rfl, rfl, rfl, rfl⟩
      · have h0 := fun h' => h ((hz _ _).2 h')
        have hpos : 0 < y.mag - x.mag := lt_of_le_of_ne (by linarith) (Ne.symm h0)
        rw [hsg hpos]
        exact hnorm (u2 h0)

end BigFloat
end GoFloat
