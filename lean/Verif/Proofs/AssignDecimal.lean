import Verif.Proofs.FloatBits
import Verif.Proofs.PowersOfTen
import Verif.Proofs.GrisuFloat
/-
Lemmas about `AssignDecimal` (extfloat.go:243-311).
-/
namespace GoFloat.Strconv
open Spec

variable {F : Format}

/-- Strictly between the midpoints around a code, or beyond the last one. -/
theorem roundsTo_min (hF : GoFormat F) (neg : Bool) {n : ℕ} {q : ℚ} (hq : 0 ≤ q) (hlo : n ≠ 0 → F.magc (n - 1) + F.magc n < 2 * q)
    (hhi : 2 * q < F.magc n + F.magc (n + 1)) :
    F.RoundsTo neg q (F.signPart neg + min n F.infCode) ∧ (F.infCode ≤ n ↔ F.overflowAt ≤ q) := by
  have hb := hF.bounds
  have hinf := magc_infCode_add F (by omega)
  have hmono := F.magc_strictMono.monotone
  by_cases h : F.infCode ≤ n
  · have hi0 : 0 < F.infCode := by
      unfold Format.infCode
      have : 2 ^ 5 ≤ 2 ^ F.w := Nat.pow_le_pow_right (by norm_num) hb.2.2.1
      exact Nat.mul_pos (by omega) (Nat.two_pow_pos _)
    have h1 := hlo (by omega)
    have h2 := hmono (show F.infCode - 1 ≤ n - 1 by omega)
    have h3 := hmono h
    have hov : F.overflowAt ≤ q := by linarith
    refine ⟨?_, iff_of_true h hov⟩
    rw [min_eq_right h]
    unfold Format.RoundsTo
    rw [if_pos hov]
    exact F.decode_inf neg
  · have hlt : n < F.infCode := by omega
    rw [min_eq_left hlt.le]
    refine ⟨(roundsTo_iff F (by omega) (by omega) neg hlt hq).2 ⟨fun h0 => ⟨(hlo h0).le, fun _ => hlo h0⟩, hhi.le, fun _ => hhi⟩, ?_⟩
    refine iff_of_false h (not_le.2 ?_)
    have h2 := hmono (show n ≤ F.infCode - 1 by omega)
    have h3 := hmono (show n + 1 ≤ F.infCode by omega)
    linarith

/-- Close to a multiple of the unit `2^(qmin + k)`. -/
theorem roundsTo_near (hF : GoFormat F) (neg : Bool) {k N : ℕ} {q : ℚ} (hq : 0 ≤ q) (hN : N ≤ 2 ^ (F.t + 1)) (hk : k = 0 ∨ 2 ^ F.t ≤ N)
    (hlo : ((N : ℚ) - 1 / 4) * (2 : ℚ) ^ (F.qmin + k) < q ∨ ((N : ℚ) - 1 / 2) * (2 : ℚ) ^ (F.qmin + k) < q ∧ (k = 0 ∨ 2 ^ F.t < N))
    (hhi : q < ((N : ℚ) + 1 / 2) * (2 : ℚ) ^ (F.qmin + k)) :
    F.RoundsTo neg q (F.signPart neg + min (k * 2 ^ F.t + N) F.infCode) ∧ (F.infCode ≤ k * 2 ^ F.t + N ↔ F.overflowAt ≤ q) := by
  have hb := hF.bounds
  have hP := Nat.two_pow_pos F.t
  have hP1 : 2 ^ (F.t + 1) = 2 * 2 ^ F.t := by rw [pow_succ, mul_comm]
  have hu : (0 : ℚ) < (2 : ℚ) ^ (F.qmin + k) := by positivity
  have hval := F.magc_eq hN hk
  apply roundsTo_min hF neg hq
  · intro h0
    rw [hval]
    have hN0 : N ≠ 0 := by
      intro hc
      rcases hk with hk | hk
      · rw [hc, hk] at h0; simp at h0
      · omega
    by_cases hcase : k = 0 ∨ 2 ^ F.t < N
    · have h1 : k * 2 ^ F.t + N - 1 = k * 2 ^ F.t + (N - 1) := by omega
      rw [h1, F.magc_eq (by omega) (by omega), Nat.cast_sub (by omega)]
      have hlo' : ((N : ℚ) - 1 / 2) * (2 : ℚ) ^ (F.qmin + k) < q := by
        rcases hlo with h | h
        · refine lt_of_le_of_lt (mul_le_mul_of_nonneg_right ?_ hu.le) h
          linarith
        · exact h.1
      push_cast
      linarith
    · have hk0 : k ≠ 0 := by omega
      have hNe : N = 2 ^ F.t := by omega
      have h1 := magc_pred' F hk0
      rw [hNe, h1]
      rcases hlo with h | h
      · have hu2 : (2 : ℚ) ^ (F.qmin + k - 1) = (2 : ℚ) ^ (F.qmin + k) / 2 := by rw [zpow_sub_one₀ (by norm_num)]; rfl
        rw [hu2]
        rw [hNe] at h
        push_cast at h ⊢
        linarith
      · exact absurd h.2 hcase
  · rw [hval]
    by_cases hcase : N < 2 ^ (F.t + 1)
    · rw [magc_succ F hcase hk]
      linarith
    · have hNe : N = 2 ^ (F.t + 1) := by omega
      have h1 : k * 2 ^ F.t + N + 1 = (k + 1) * 2 ^ F.t + 2 ^ F.t + 1 := by rw [hNe, hP1]; ring
      rw [h1, magc_succ F (by omega) (Or.inr le_rfl)]
      have hu2 : (2 : ℚ) ^ (F.qmin + (k + 1 : ℕ)) = (2 : ℚ) ^ (F.qmin + k) * 2 := by
        push_cast
        rw [← add_assoc, zpow_add_one₀ (by norm_num)]
      have hNq : (N : ℚ) = 2 * 2 ^ F.t := by rw [hNe, hP1]; push_cast; rfl
      rw [hu2]
      rw [hNq] at hhi ⊢
      push_cast
      nlinarith

/-- The low bits of the mantissa decide: away from the middle by more than the error, the rounded mantissa is the nearest number. -/
theorem floatBits_near (hF : GoFormat F) {f : ExtFloat} (hm : 2 ^ 63 ≤ f.mant.toNat) (he : -2 ^ 60 ≤ f.exp) {E : ℕ} (hE0 : 1 ≤ E) (hE : E ≤ 64) {q : ℚ}
    (hq : 0 ≤ q) (h1 : ((f.mant.toNat : ℚ) - E) * (2 : ℚ) ^ f.exp < q) (h2 : q < ((f.mant.toNat : ℚ) + E) * (2 : ℚ) ^ f.exp)
    (htest : cutBits F f.exp ≤ 63 → f.mant.toNat % 2 ^ cutBits F f.exp + E ≤ 2 ^ (cutBits F f.exp - 1) ∨
      2 ^ (cutBits F f.exp - 1) + E ≤ f.mant.toNat % 2 ^ cutBits F f.exp)
    (h64 : cutBits F f.exp = 64 → (2 : ℚ) ^ (F.qmin - 1) < q)
    (h65 : cutBits F f.exp = 65 → f.mant.toNat + E ≤ 2 ^ 64) :
    F.RoundsTo f.neg q (f.floatBits (infoOf F)).1.toNat ∧ ((f.floatBits (infoOf F)).2 = true ↔ F.overflowAt ≤ q) := by
  have hb := hF.bounds
  have hlt := f.mant.isLt
  have heq := floatBits_eq hF hm he
  rw [Prod.mk.injEq] at heq
  rw [heq.1, heq.2, decide_eq_true_iff]
  clear heq
  have hcs := cut_step hF f.exp
  have hX : 11 ≤ cutBits F f.exp := by unfold cutBits; omega
  set M := f.mant.toNat with hM
  set e := f.exp
  set X := cutBits F e with hXd
  set k := stepOf F e with hkd
  have hpow : (2 : ℚ) ^ (F.qmin + k) = 2 ^ X * (2 : ℚ) ^ e := by
    rw [hcs, add_comm, zpow_add₀ (by norm_num), zpow_natCast]
  have hu : (0 : ℚ) < (2 : ℚ) ^ e := by positivity
  have hk63 : k ≠ 0 → X = 63 - F.t := by
    intro h
    rw [hXd]; rw [hkd] at h
    unfold cutBits; unfold stepOf at h
    omega
  have hXt : 64 ≤ F.t + 1 + X := by rw [hXd]; unfold cutBits; omega
  have hNle : roundHalfUp M X ≤ 2 ^ (F.t + 1) :=
    roundHalfUp_le (lt_of_lt_of_le hlt (Nat.pow_le_pow_right (by norm_num) hXt))
  have hdm := Nat.div_add_mod M (2 ^ X)
  have hml := Nat.mod_lt M (Nat.two_pow_pos X)
  have hH : 2 ^ X = 2 * 2 ^ (X - 1) := by rw [← pow_succ']; congr 1; omega
  have hH9 : 2 ^ 10 ≤ 2 ^ (X - 1) := Nat.pow_le_pow_right (by norm_num) (by omega)
  have hkN : k = 0 ∨ 2 ^ F.t ≤ M / 2 ^ X := by
    by_cases h : k = 0
    · exact Or.inl h
    · right
      rw [hk63 h, Nat.le_div_iff_mul_le (Nat.two_pow_pos _), ← pow_add, show F.t + (63 - F.t) = 63 by omega]
      exact hm
  have hbit : M.testBit (X - 1) = decide (2 ^ (X - 1) ≤ M % 2 ^ X) := by
    rw [Nat.testBit_eq_decide_div_mod_eq]
    have h3 : M / 2 ^ (X - 1) % 2 = M % 2 ^ X / 2 ^ (X - 1) := by
      rw [hH, mul_comm, Nat.mod_mul_right_div_self]
    rw [h3]
    by_cases h : 2 ^ (X - 1) ≤ M % 2 ^ X
    · have : M % 2 ^ X / 2 ^ (X - 1) = 1 := Nat.div_eq_of_lt_le (by omega) (by omega)
      simp [h, this]
    · have : M % 2 ^ X / 2 ^ (X - 1) = 0 := Nat.div_eq_of_lt (by omega)
      simp [h, this]
  have hdmq : (2 : ℚ) ^ X * (M / 2 ^ X : ℕ) + (M % 2 ^ X : ℕ) = M := by exact_mod_cast hdm
  have hHq : (2 : ℚ) ^ X = 2 * 2 ^ (X - 1) := by exact_mod_cast hH
  have hEq : (E : ℚ) ≤ 64 := by exact_mod_cast hE
  have hH9q : (1024 : ℚ) ≤ 2 ^ (X - 1) := by exact_mod_cast hH9
  have h2X : (0 : ℚ) ≤ (M % 2 ^ X : ℕ) := Nat.cast_nonneg _
  have hmlq : ((M % 2 ^ X : ℕ) : ℚ) < 2 * 2 ^ (X - 1) := by
    have h3 : M % 2 ^ X < 2 * 2 ^ (X - 1) := by omega
    exact_mod_cast h3
  by_cases hX63 : X ≤ 63
  · rcases htest hX63 with ht | ht
    · have hn : roundHalfUp M X = M / 2 ^ X := by
        unfold roundHalfUp
        rw [hbit, if_neg]
        · rfl
        · rw [decide_eq_true_iff]
          omega
      have htq : ((M % 2 ^ X : ℕ) : ℚ) + E ≤ 2 ^ (X - 1) := by exact_mod_cast ht
      rw [hn]
      rw [hn] at hNle
      refine roundsTo_near hF f.neg hq hNle hkN (Or.inl ?_) ?_
      · rw [hpow, ← mul_assoc]
        refine lt_of_le_of_lt (mul_le_mul_of_nonneg_right ?_ hu.le) h1
        rw [← hdmq, hHq]
        nlinarith
      · rw [hpow, ← mul_assoc]
        refine lt_of_lt_of_le h2 (mul_le_mul_of_nonneg_right ?_ hu.le)
        rw [← hdmq, hHq]
        nlinarith
    · have hn : roundHalfUp M X = M / 2 ^ X + 1 := by
        unfold roundHalfUp
        rw [hbit, if_pos]
        rw [decide_eq_true_iff]
        omega
      have htq : (2 : ℚ) ^ (X - 1) + E ≤ ((M % 2 ^ X : ℕ) : ℚ) := by exact_mod_cast ht
      rw [hn]
      rw [hn] at hNle
      refine roundsTo_near hF f.neg hq hNle (by omega) (Or.inr ⟨?_, by omega⟩) ?_
      · rw [hpow, ← mul_assoc]
        refine lt_of_le_of_lt (mul_le_mul_of_nonneg_right ?_ hu.le) h1
        rw [← hdmq, hHq]
        push_cast
        nlinarith
      · rw [hpow, ← mul_assoc]
        refine lt_of_lt_of_le h2 (mul_le_mul_of_nonneg_right ?_ hu.le)
        rw [← hdmq, hHq]
        push_cast
        nlinarith
  · have hk0 : k = 0 := by
      by_contra hc
      have := hk63 hc
      omega
    have hMX : M < 2 ^ X := lt_of_lt_of_le hlt (Nat.pow_le_pow_right (by norm_num) (by omega))
    have hd0 : M / 2 ^ X = 0 := Nat.div_eq_of_lt hMX
    have hm0 : M % 2 ^ X = M := Nat.mod_eq_of_lt hMX
    rw [hm0] at hbit
    by_cases h4 : X = 64
    · have hn : roundHalfUp M X = 1 := by
        unfold roundHalfUp
        rw [hbit, if_pos, hd0]
        rw [decide_eq_true_iff, h4]
        exact hm
      have hlo := h64 h4
      rw [hn]
      refine roundsTo_near hF f.neg hq (Nat.one_le_two_pow) (Or.inl hk0) (Or.inr ⟨?_, Or.inl hk0⟩) ?_
      · rw [hk0]
        rw [zpow_sub_one₀ (by norm_num)] at hlo
        push_cast
        rw [add_zero]
        linarith
      · rw [hpow, h4, ← mul_assoc]
        refine lt_of_lt_of_le h2 (mul_le_mul_of_nonneg_right ?_ hu.le)
        have : (M : ℚ) ≤ 2 ^ 64 := by exact_mod_cast hlt.le
        push_cast
        linarith
    · have hn : roundHalfUp M X = 0 := by
        unfold roundHalfUp
        rw [hbit, if_neg, hd0]
        rw [decide_eq_true_iff, not_le]
        exact lt_of_lt_of_le hlt (Nat.pow_le_pow_right (by norm_num) (by omega))
      have hME : M + E ≤ 2 ^ (X - 1) := by
        by_cases h5 : X = 65
        · rw [h5]
          exact h65 h5
        · have : 2 ^ 65 ≤ 2 ^ (X - 1) := Nat.pow_le_pow_right (by norm_num) (by omega)
          omega
      have hMEq : (M : ℚ) + E ≤ 2 ^ (X - 1) := by exact_mod_cast hME
      have huk : (0 : ℚ) < (2 : ℚ) ^ (F.qmin + k) := by positivity
      rw [hn]
      refine roundsTo_near hF f.neg hq (by omega) (Or.inl hk0) (Or.inl ?_) ?_
      · push_cast
        linarith
      · rw [hpow, ← mul_assoc]
        refine lt_of_lt_of_le h2 (mul_le_mul_of_nonneg_right ?_ hu.le)
        rw [hHq]
        push_cast
        linarith

/-- The signed comparison of lines 304-308. -/
theorem window_test (hF : GoFormat F) {f : ExtFloat} (hm : 2 ^ 63 ≤ f.mant.toNat) {E : ℕ} (hE : E ≤ 64) {H K : BitVec 64}
    (hH : H.toNat = 2 ^ (cutBits F f.exp - 1) % 2 ^ 64) (hK : K.toNat = (2 ^ cutBits F f.exp - 1) % 2 ^ 64)
    (h : ¬ ((H - BitVec.ofInt 64 E).toInt < (f.mant &&& K).toInt ∧ (f.mant &&& K).toInt < (H + BitVec.ofInt 64 E).toInt)) :
    (cutBits F f.exp ≤ 63 → f.mant.toNat % 2 ^ cutBits F f.exp + E ≤ 2 ^ (cutBits F f.exp - 1) ∨
      2 ^ (cutBits F f.exp - 1) + E ≤ f.mant.toNat % 2 ^ cutBits F f.exp) ∧
    (cutBits F f.exp = 65 → f.mant.toNat + E ≤ 2 ^ 64) := by
  have hb := hF.bounds
  have hlt := f.mant.isLt
  have hX : 11 ≤ cutBits F f.exp := by unfold cutBits; omega
  set M := f.mant.toNat with hM
  set X := cutBits F f.exp
  have hEn : (BitVec.ofInt 64 (E : ℤ)).toNat = E := by
    rw [BitVec.ofInt_natCast, BitVec.toNat_ofNat, Nat.mod_eq_of_lt (by omega)]
  have hsub : (H - BitVec.ofInt 64 (E : ℤ)).toNat = (2 ^ 64 - E + H.toNat) % 2 ^ 64 := by
    rw [BitVec.toNat_sub, hEn]
  have hadd : (H + BitVec.ofInt 64 (E : ℤ)).toNat = (H.toNat + E) % 2 ^ 64 := by
    rw [BitVec.toNat_add, hEn]
  have hand : (f.mant &&& K).toNat = M &&& ((2 ^ X - 1) % 2 ^ 64) := by
    rw [BitVec.toNat_and, hK]
  rw [BitVec.toInt_eq_toNat_cond, BitVec.toInt_eq_toNat_cond, BitVec.toInt_eq_toNat_cond, hsub, hadd, hand, hH] at h
  constructor
  · intro h63
    have hp1 : 2 ^ X ≤ 2 ^ 63 := Nat.pow_le_pow_right (by norm_num) h63
    have hp2 : 2 ^ X = 2 * 2 ^ (X - 1) := by rw [← pow_succ']; congr 1; omega
    have hp3 : 2 ^ 10 ≤ 2 ^ (X - 1) := Nat.pow_le_pow_right (by norm_num) (by omega)
    have hm := Nat.mod_lt M (Nat.two_pow_pos X)
    rw [Nat.mod_eq_of_lt (show 2 ^ X - 1 < 2 ^ 64 by omega), Nat.and_two_pow_sub_one_eq_mod] at h
    generalize M % 2 ^ X = r at *
    generalize 2 ^ X = P at *
    generalize 2 ^ (X - 1) = Q at *
    split_ifs at h <;> omega
  · intro h65
    rw [h65] at h
    have h1 : M &&& ((2 ^ 65 - 1) % 2 ^ 64) = M := by
      rw [show (2 ^ 65 - 1) % 2 ^ 64 = 2 ^ 64 - 1 by norm_num, Nat.and_two_pow_sub_one_eq_mod, Nat.mod_eq_of_lt hlt]
    rw [h1] at h
    split_ifs at h <;> omega

theorem window_converse (hF : GoFormat F) {f : ExtFloat} (hm : 2 ^ 63 ≤ f.mant.toNat) {E : ℕ} (hE : E ≤ 64) {H K : BitVec 64}
    (hH : H.toNat = 2 ^ (cutBits F f.exp - 1) % 2 ^ 64) (hK : K.toNat = (2 ^ cutBits F f.exp - 1) % 2 ^ 64)
    (h : (H - BitVec.ofInt 64 E).toInt < (f.mant &&& K).toInt ∧ (f.mant &&& K).toInt < (H + BitVec.ofInt 64 E).toInt) :
    (cutBits F f.exp ≤ 63 → 2 ^ (cutBits F f.exp - 1) < f.mant.toNat % 2 ^ cutBits F f.exp + E ∧
      f.mant.toNat % 2 ^ cutBits F f.exp < 2 ^ (cutBits F f.exp - 1) + E) ∧
    cutBits F f.exp ≠ 64 ∧ (cutBits F f.exp = 65 → 2 ^ 64 < f.mant.toNat + E) := by
  have hb := hF.bounds
  have hlt := f.mant.isLt
  have hX : 11 ≤ cutBits F f.exp := by unfold cutBits; omega
  set M := f.mant.toNat with hM
  set X := cutBits F f.exp
  have hEn : (BitVec.ofInt 64 (E : ℤ)).toNat = E := by
    rw [BitVec.ofInt_natCast, BitVec.toNat_ofNat, Nat.mod_eq_of_lt (by omega)]
  have hsub : (H - BitVec.ofInt 64 (E : ℤ)).toNat = (2 ^ 64 - E + H.toNat) % 2 ^ 64 := by
    rw [BitVec.toNat_sub, hEn]
  have hadd : (H + BitVec.ofInt 64 (E : ℤ)).toNat = (H.toNat + E) % 2 ^ 64 := by
    rw [BitVec.toNat_add, hEn]
  have hand : (f.mant &&& K).toNat = M &&& ((2 ^ X - 1) % 2 ^ 64) := by
    rw [BitVec.toNat_and, hK]
  rw [BitVec.toInt_eq_toNat_cond, BitVec.toInt_eq_toNat_cond, BitVec.toInt_eq_toNat_cond, hsub, hadd, hand, hH] at h
  refine ⟨?_, ?_, ?_⟩
  · intro h63
    have hp1 : 2 ^ X ≤ 2 ^ 63 := Nat.pow_le_pow_right (by norm_num) h63
    have hp2 : 2 ^ X = 2 * 2 ^ (X - 1) := by rw [← pow_succ']; congr 1; omega
    have hp3 : 2 ^ 10 ≤ 2 ^ (X - 1) := Nat.pow_le_pow_right (by norm_num) (by omega)
    have hm := Nat.mod_lt M (Nat.two_pow_pos X)
    rw [Nat.mod_eq_of_lt (show 2 ^ X - 1 < 2 ^ 64 by omega), Nat.and_two_pow_sub_one_eq_mod] at h
    generalize M % 2 ^ X = r at *
    generalize 2 ^ X = P at *
    generalize 2 ^ (X - 1) = Q at *
    split_ifs at h <;> omega
  · intro h64
    rw [h64] at h
    have h1 : M &&& ((2 ^ 64 - 1) % 2 ^ 64) = M := by
      rw [show (2 ^ 64 - 1) % 2 ^ 64 = 2 ^ 64 - 1 by norm_num, Nat.and_two_pow_sub_one_eq_mod, Nat.mod_eq_of_lt hlt]
    rw [h1] at h
    split_ifs at h <;> omega
  · intro h65
    rw [h65] at h
    have h1 : M &&& ((2 ^ 65 - 1) % 2 ^ 64) = M := by
      rw [show (2 ^ 65 - 1) % 2 ^ 64 = 2 ^ 64 - 1 by norm_num, Nat.and_two_pow_sub_one_eq_mod, Nat.mod_eq_of_lt hlt]
    rw [h1] at h
    split_ifs at h <;> omega

theorem assign_shape (m : BitVec 64) {e10 : ℤ} (neg trunc : Bool) (flt : FloatInfo) (h1 : -348 ≤ e10) (h2 : e10 < 348) :
    ∃ (i j : ℕ) (e f1 : ExtFloat) (errs : ℕ), e10 = -348 + 8 * i + j ∧ j < 8 ∧ i < 87 ∧ entryOk e (-348 + 8 * (i : ℤ)) = true ∧
      ((m.toNat < 10 ^ (19 - j) ∧ (∃ p : BitVec 64, p.toNat = 10 ^ j ∧ f1 = (ExtFloat.normalize ⟨m * p, 0, neg⟩).1) ∧
          errs = if trunc then 9 else 4) ∨
        (10 ^ (19 - j) ≤ m.toNat ∧ (∃ g, entryOk g j = true ∧ g.val = (10 : ℚ) ^ j ∧ f1 = (ExtFloat.normalize ⟨m, 0, neg⟩).1.multiply g) ∧
          errs = if trunc then 13 else 9)) ∧
      assignDecimal m e10 neg trunc flt =
        .ok ((f1.multiply e).normalize.1, assignTest (f1.multiply e).normalize.1.mant
          (assignExtra (f1.multiply e).normalize.1.exp flt) ((errs : ℤ) * 2 ^ (f1.multiply e).normalize.2)) := by
  obtain ⟨i, j, hij, hj, hi⟩ : ∃ i j : ℕ, e10 = -348 + 8 * i + j ∧ j < 8 ∧ i < 87 :=
    ⟨((e10 + 348) / 8).toNat, ((e10 + 348) % 8).toNat, by omega, by omega, by omega⟩
  have hdiv : (e10 - firstPowerOfTen).tdiv stepPowerOfTen = (i : ℤ) := by
    unfold firstPowerOfTen stepPowerOfTen
    rw [Int.tdiv_eq_ediv_of_nonneg (by omega)]
    omega
  have hmod : (e10 - firstPowerOfTen).tmod stepPowerOfTen = (j : ℤ) := by
    unfold firstPowerOfTen stepPowerOfTen
    rw [Int.tmod_eq_emod_of_nonneg (by omega)]
    omega
  obtain ⟨e, he1, he2⟩ := power_row hi
  obtain ⟨p19, hp1, hp2⟩ := pow10_row (show 19 - j < 20 by omega)
  obtain ⟨pj, hpj1, hpj2⟩ := pow10_row (show j < 20 by omega)
  obtain ⟨g, hg1, hg2, hg3⟩ := small_row hj
  have hg : ¬ (e10 < firstPowerOfTen ∨ (i : ℤ) ≥ powersOfTen.length) := by
    rw [powersOfTen_length]
    unfold firstPowerOfTen
    push_cast
    omega
  have h19 : (19 : ℤ) - (j : ℤ) = ((19 - j : ℕ) : ℤ) := by omega
  have hj19 : ((j : ℤ) < 19) := by omega
  have hrest : ∀ (f1 : ExtFloat) (er : ℤ) (errs : ℕ), ((if er > 0 then er + 1 else er) + 4 = (errs : ℤ)) →
      assignLarge f1 er i = .ok (f1.multiply e, errs) := by
    intro f1 er errs her
    unfold assignLarge
    rw [he1, ok_bind, her]
    rfl
  have hall : ∀ (f1 : ExtFloat) (er : ℤ) (errs : ℕ), ((if er > 0 then er + 1 else er) + 4 = (errs : ℤ)) →
      assignSmall ⟨m, 0, neg⟩ (if trunc then 4 else 0) j = .ok (f1, er) →
      assignDecimal m e10 neg trunc flt =
        .ok ((f1.multiply e).normalize.1, assignTest (f1.multiply e).normalize.1.mant
          (assignExtra (f1.multiply e).normalize.1.exp flt) ((errs : ℤ) * 2 ^ (f1.multiply e).normalize.2)) := by
    intro f1 er errs her h
    unfold assignDecimal
    rw [hdiv, hmod]
    dsimp only
    rw [if_neg hg, h, ok_bind]
    dsimp only
    rw [hrest _ _ _ her, ok_bind]
    rfl
  by_cases hlt : m.toNat < 10 ^ (19 - j)
  · have hlt' : m < p19 := by rw [BitVec.lt_def, hp2]; exact hlt
    refine ⟨i, j, e, (ExtFloat.normalize ⟨m * pj, 0, neg⟩).1, if trunc then 9 else 4, hij, hj, hi, he2,
      Or.inl ⟨hlt, ⟨pj, hpj2, rfl⟩, rfl⟩, ?_⟩
    refine hall _ (if trunc then 4 else 0) _ (by cases trunc <;> rfl) ?_
    unfold assignSmall
    rw [h19, hp1, ok_bind, if_pos ⟨hj19, hlt'⟩, hpj1, ok_bind]
    rfl
  · have hlt' : ¬ m < p19 := by rw [BitVec.lt_def, hp2]; exact hlt
    refine ⟨i, j, e, (ExtFloat.normalize ⟨m, 0, neg⟩).1.multiply g, if trunc then 13 else 9, hij, hj, hi, he2,
      Or.inr ⟨not_lt.1 hlt, ⟨g, hg2, hg3, rfl⟩, rfl⟩, ?_⟩
    refine hall _ ((if trunc then 4 else 0) + 4) _ (by cases trunc <;> rfl) ?_
    unfold assignSmall
    rw [h19, hp1, ok_bind, if_neg (fun h => hlt' h.2), hg1, ok_bind]
    rfl

theorem assign_out (m : BitVec 64) {e10 : ℤ} (neg trunc : Bool) (flt : FloatInfo) (h : e10 < -348 ∨ 348 ≤ e10) :
    assignDecimal m e10 neg trunc flt = .ok (⟨m, 0, neg⟩, false) := by
  unfold assignDecimal
  dsimp only
  rw [if_pos]
  · rfl
  rw [powersOfTen_length]
  unfold firstPowerOfTen stepPowerOfTen
  rcases h with h | h
  · exact Or.inl h
  · right
    rw [Int.tdiv_eq_ediv_of_nonneg (by omega)]
    push_cast
    omega

theorem scale_err {f e : ExtFloat} {k : ℤ} {y d : ℚ} (he : entryOk e k = true) (h : |(f.mant.toNat : ℚ) - y| ≤ d) :
    |((f.multiply e).mant.toNat : ℚ) - y * tenScale e k| < 1 + d ∧
      y * (2 : ℚ) ^ f.exp * (10 : ℚ) ^ k = (y * tenScale e k) * (2 : ℚ) ^ (f.multiply e).exp := by
  constructor
  · have h1 := multiply_error f he
    obtain ⟨b0, b1⟩ := scale_bounds he
    generalize tenScale e k = T at *
    have hT : 0 ≤ T := by
      have : (0 : ℚ) ≤ 1 / 2 - 1 / 2 ^ 65 := by norm_num
      linarith
    have h2 : |(f.mant.toNat : ℚ) * T - y * T| ≤ d := by
      rw [← sub_mul, abs_mul, abs_of_nonneg hT]
      have := abs_nonneg ((f.mant.toNat : ℚ) - y)
      nlinarith
    have := abs_sub_le ((f.multiply e).mant.toNat : ℚ) (f.mant.toNat * T) (y * T)
    linarith
  · rw [multiply_exp, zpow_add₀ (by norm_num), zpow_add₀ (by norm_num), show (64 : ℤ) = ((64 : ℕ) : ℤ) from rfl, zpow_natCast]
    unfold tenScale
    field_simp

theorem entry_exp {e : ExtFloat} {k : ℤ} (he : entryOk e k = true) (hk : -348 ≤ k) : -1300 ≤ e.exp := by
  by_contra hc
  obtain ⟨b0, b1⟩ := scale_bounds he
  unfold tenScale at b1
  have hE : (0 : ℚ) < (2 : ℚ) ^ e.exp := by positivity
  rw [div_div, div_lt_one (by positivity)] at b1
  have h1 : (10 : ℚ) ^ (-348 : ℤ) ≤ (10 : ℚ) ^ k := zpow_le_zpow_right₀ (by norm_num) hk
  have h2 : (2 : ℚ) ^ e.exp ≤ (2 : ℚ) ^ (-1300 : ℤ) := zpow_le_zpow_right₀ (by norm_num) (by omega)
  have h3 : (2 : ℚ) ^ (-1300 : ℤ) * 2 ^ 64 ≤ (10 : ℚ) ^ (-348 : ℤ) := by
    rw [show (-1300 : ℤ) = -((1300 : ℕ) : ℤ) from rfl, show (-348 : ℤ) = -((348 : ℕ) : ℤ) from rfl, zpow_neg, zpow_neg, zpow_natCast, zpow_natCast]
    rw [← div_eq_inv_mul, ← one_div, div_le_div_iff₀ (by positivity) (by positivity)]
    have : (2 ^ 64 * 10 ^ 348 : ℕ) ≤ 1 * 2 ^ 1300 := by decide +kernel
    exact_mod_cast this
  nlinarith

theorem normalize_shift {f : ExtFloat} {c : ℕ} (hc : c ≤ 63) (h : 2 ^ (63 - c) ≤ f.mant.toNat) : f.normalize.2 ≤ c := by
  have h0 : f.mant ≠ 0 := by
    intro h0
    rw [h0] at h
    have : 0 < 2 ^ (63 - c) := by positivity
    simp at h
  obtain ⟨-, -, -, -, h1, -, -⟩ := normalize_spec f h0
  have hlt := f.normalize.1.mant.isLt
  rw [h1] at hlt
  by_contra hcon
  have h2 : 2 ^ (c + 1) ≤ 2 ^ f.normalize.2 := Nat.pow_le_pow_right (by norm_num) (by omega)
  have h3 : 2 ^ (63 - c) * 2 ^ (c + 1) = 2 ^ 64 := by rw [← pow_add]; congr 1; omega
  have := Nat.mul_le_mul h h2
  omega

/-- The error of `f` after lines 250-282 is below `errs * 2^shift`. -/
theorem norm_err {f : ExtFloat} {z : ℚ} {c : ℕ} (h0 : f.mant ≠ 0) (h : |(f.mant.toNat : ℚ) - z| < c) :
    ((f.normalize.1.mant.toNat : ℚ) - (c * 2 ^ f.normalize.2 : ℕ)) * (2 : ℚ) ^ f.normalize.1.exp < z * (2 : ℚ) ^ f.exp ∧
      z * (2 : ℚ) ^ f.exp < ((f.normalize.1.mant.toNat : ℚ) + (c * 2 ^ f.normalize.2 : ℕ)) * (2 : ℚ) ^ f.normalize.1.exp := by
  obtain ⟨-, -, -, h1, h2, -, -⟩ := normalize_spec f h0
  rw [h1, h2]
  have hs : (2 : ℚ) ^ f.exp = 2 ^ f.normalize.2 * (2 : ℚ) ^ (f.exp - f.normalize.2) := by
    rw [← zpow_natCast, ← zpow_add₀ (by norm_num)]
    congr 1
    ring
  rw [hs]
  have hp : (0 : ℚ) < 2 ^ f.normalize.2 * (2 : ℚ) ^ (f.exp - f.normalize.2) := by positivity
  generalize (2 : ℚ) ^ (f.exp - f.normalize.2) = A at *
  push_cast
  generalize (2 : ℚ) ^ f.normalize.2 = B at *
  rw [abs_lt] at h
  constructor <;> nlinarith

/-- What the caller of `AssignDecimal` knows about the decimal `x` whose leading digits are `m`. -/
def DecArg (m : BitVec 64) (trunc : Bool) (x : ℚ) : Prop :=
  if trunc then 2 ^ 60 ≤ m.toNat ∧ (m.toNat : ℚ) ≤ x ∧ x < m.toNat + 1 else x = m.toNat

/-- The first factor: `f1` is near `x * 10^j`. -/
theorem assign_first {m : BitVec 64} (hm0 : 0 < m.toNat) {neg trunc : Bool} {j errs : ℕ} {f1 : ExtFloat} (hj : j < 8)
    (hf1 : (m.toNat < 10 ^ (19 - j) ∧ (∃ p : BitVec 64, p.toNat = 10 ^ j ∧ f1 = (ExtFloat.normalize ⟨m * p, 0, neg⟩).1) ∧
          errs = if trunc then 9 else 4) ∨
        (10 ^ (19 - j) ≤ m.toNat ∧ (∃ g, entryOk g j = true ∧ g.val = (10 : ℚ) ^ j ∧ f1 = (ExtFloat.normalize ⟨m, 0, neg⟩).1.multiply g) ∧
          errs = if trunc then 13 else 9)) :
    ∃ c : ℕ, c ≤ 2 ∧ errs * 2 ^ c ≤ 64 ∧ 1 ≤ errs ∧ 2 ^ (64 - c) ≤ f1.mant.toNat ∧ 1 ≤ c ∧ f1.neg = neg ∧ -2000 ≤ f1.exp ∧
      ∀ x : ℚ, DecArg m trunc x → ∃ (y d : ℚ), |(f1.mant.toNat : ℚ) - y| ≤ d ∧ 1 + d ≤ errs ∧ y * (2 : ℚ) ^ f1.exp = x * (10 : ℚ) ^ j := by
  have hmne : m ≠ 0 := by
    intro h
    rw [h] at hm0
    exact absurd hm0 (by decide)
  rcases hf1 with ⟨hlt, ⟨p, hp, rfl⟩, rfl⟩ | ⟨hge, ⟨g, hg1, hg2, rfl⟩, rfl⟩
  · have hprod : (m * p).toNat = m.toNat * 10 ^ j := by
      rw [BitVec.toNat_mul, hp]
      apply Nat.mod_eq_of_lt
      calc m.toNat * 10 ^ j < 10 ^ (19 - j) * 10 ^ j := Nat.mul_lt_mul_of_pos_right hlt (by positivity)
        _ = 10 ^ 19 := by rw [← pow_add]; congr 1; omega
        _ < 2 ^ 64 := by norm_num
    have hne : (⟨m * p, 0, neg⟩ : ExtFloat).mant ≠ 0 := by
      intro h
      have h9 : (m * p).toNat = 0 := by
        have : m * p = 0 := h
        rw [this]; rfl
      rw [hprod] at h9
      have : 0 < m.toNat * 10 ^ j := by positivity
      omega
    obtain ⟨-, n2, n3, n4, n5, n6, n7⟩ := normalize_spec (⟨m * p, 0, neg⟩ : ExtFloat) hne
    have hsh : trunc = true → 2 ^ 60 ≤ m.toNat → j = 0 ∧ (ExtFloat.normalize ⟨m * p, 0, neg⟩).2 ≤ 3 := by
      intro _ h60
      have hj0 : j = 0 := by
        by_contra h0
        have : 10 ^ (19 - j) ≤ 10 ^ 18 := Nat.pow_le_pow_right (by norm_num) (by omega)
        have h18 : (10 : ℕ) ^ 18 < 2 ^ 60 := by norm_num
        omega
      refine ⟨hj0, normalize_shift (by norm_num) ?_⟩
      show 2 ^ (63 - 3) ≤ (m * p).toNat
      rw [hprod, hj0]
      omega
    generalize hN : ExtFloat.normalize ⟨m * p, 0, neg⟩ = N at *
    refine ⟨1, by norm_num, by cases trunc <;> norm_num, by cases trunc <;> norm_num, n2, le_refl _, n3, ?_, ?_⟩
    · rw [n4]
      have : (⟨m * p, 0, neg⟩ : ExtFloat).exp = 0 := rfl
      omega
    · intro x hx
      refine ⟨x * 10 ^ j * 2 ^ N.2, if trunc then 8 else 0, ?_, by cases trunc <;> norm_num, ?_⟩
      · rw [n5]
        show |((((m * p).toNat * 2 ^ N.2 : ℕ)) : ℚ) - _| ≤ _
        rw [hprod]
        push_cast
        rw [← sub_mul, ← sub_mul]
        unfold DecArg at hx
        cases trunc with
        | false =>
          rw [if_neg (by decide)] at hx
          rw [hx]
          simp
        | true =>
          rw [if_pos rfl] at hx
          obtain ⟨x1, x2, x3⟩ := hx
          obtain ⟨hj0, hs⟩ := hsh rfl x1
          rw [hj0, pow_zero, mul_one, if_pos rfl, abs_mul, abs_of_nonneg (by positivity : (0 : ℚ) ≤ 2 ^ N.2), abs_sub_comm, abs_of_nonneg (by linarith)]
          have h8 : (2 : ℚ) ^ N.2 ≤ 8 := by
            calc (2 : ℚ) ^ N.2 ≤ 2 ^ 3 := pow_le_pow_right₀ (by norm_num) hs
              _ = 8 := by norm_num
          have : (0 : ℚ) < 2 ^ N.2 := by positivity
          nlinarith
      · rw [n4]
        show x * 10 ^ j * 2 ^ N.2 * (2 : ℚ) ^ ((0 : ℤ) - N.2) = _
        rw [zero_sub, zpow_neg, zpow_natCast]
        field_simp
  · obtain ⟨-, n2, n3, n4, n5, n6, n7⟩ := normalize_spec (⟨m, 0, neg⟩ : ExtFloat) hmne
    have hsh : 2 ^ 60 ≤ m.toNat → (ExtFloat.normalize ⟨m, 0, neg⟩).2 ≤ 3 := fun h60 => normalize_shift (by norm_num) h60
    generalize hN : ExtFloat.normalize ⟨m, 0, neg⟩ = N at *
    have hgb := (entryOk_spec hg1).1
    have hge' := entry_exp hg1 (by omega)
    have hmul : 2 ^ (64 - 2) ≤ (N.1.multiply g).mant.toNat := by
      rw [multiply_mant, Nat.le_div_iff_mul_le (by norm_num)]
      have h3 := Nat.mul_le_mul n2 hgb
      have h4 : 2 ^ (64 - 2) * 2 ^ 64 = 2 ^ 63 * 2 ^ 63 := by norm_num
      exact le_trans (le_of_eq h4) (le_trans h3 (Nat.le_add_right _ _))
    refine ⟨2, le_refl _, by cases trunc <;> norm_num, by cases trunc <;> norm_num, hmul, by norm_num, ?_, ?_, ?_⟩
    · rw [multiply_neg, n3]
    · rw [multiply_exp, n4]
      have : (⟨m, 0, neg⟩ : ExtFloat).exp = 0 := rfl
      clear hmul hgb n2 n5 hg1 hg2
      generalize g.exp = b at *
      omega
    · intro x hx
      have hd : |(N.1.mant.toNat : ℚ) - x * 2 ^ N.2| ≤ if trunc then 8 else 0 := by
        rw [n5]
        show |(((m.toNat * 2 ^ N.2 : ℕ)) : ℚ) - _| ≤ _
        push_cast
        rw [← sub_mul]
        unfold DecArg at hx
        cases trunc with
        | false =>
          rw [if_neg (by decide)] at hx
          rw [hx]
          simp
        | true =>
          rw [if_pos rfl] at hx
          obtain ⟨x1, x2, x3⟩ := hx
          have hs := hsh x1
          rw [if_pos rfl, abs_mul, abs_of_nonneg (by positivity : (0 : ℚ) ≤ 2 ^ N.2), abs_sub_comm, abs_of_nonneg (by linarith)]
          have h8 : (2 : ℚ) ^ N.2 ≤ 8 := by
            calc (2 : ℚ) ^ N.2 ≤ 2 ^ 3 := pow_le_pow_right₀ (by norm_num) hs
              _ = 8 := by norm_num
          have : (0 : ℚ) < 2 ^ N.2 := by positivity
          nlinarith
      obtain ⟨k1, k2⟩ := scale_err hg1 hd
      refine ⟨_, _, le_of_lt k1, by cases trunc <;> norm_num, ?_⟩
      rw [← k2, n4, zpow_natCast]
      show x * 2 ^ N.2 * (2 : ℚ) ^ ((0 : ℤ) - N.2) * _ = _
      rw [zero_sub, zpow_neg, zpow_natCast]
      field_simp

theorem assign_bounds (m : BitVec 64) (hm : m ≠ 0) {e10 : ℤ} (neg trunc : Bool) (flt : FloatInfo) (h1 : -348 ≤ e10) (h2 : e10 < 348) :
    ∃ (f : ExtFloat) (E : ℕ), assignDecimal m e10 neg trunc flt = .ok (f, assignTest f.mant (assignExtra f.exp flt) E) ∧
      1 ≤ E ∧ E ≤ 64 ∧ 2 ^ 63 ≤ f.mant.toNat ∧ f.neg = neg ∧ -2 ^ 60 ≤ f.exp ∧
      ∀ x : ℚ, DecArg m trunc x → ((f.mant.toNat : ℚ) - E) * (2 : ℚ) ^ f.exp < x * (10 : ℚ) ^ e10 ∧
        x * (10 : ℚ) ^ e10 < ((f.mant.toNat : ℚ) + E) * (2 : ℚ) ^ f.exp := by
  obtain ⟨i, j, e, f1, errs, hij, hj, hi, he, hf1, hA⟩ := assign_shape m neg trunc flt h1 h2
  have hm0 : 0 < m.toNat := by
    rcases Nat.eq_zero_or_pos m.toNat with h0 | h0
    · exact absurd (BitVec.eq_of_toNat_eq (by simpa using h0)) hm
    · exact h0
  have heb := (entryOk_spec he).1
  have hee := entry_exp he (by omega)
  -- the first factor
  obtain ⟨c, hc2, hE, he1, hf1m, hc1, hneg, hexp, hy⟩ := assign_first hm0 hj hf1
  have hf2 : 2 ^ (63 - c) ≤ (f1.multiply e).mant.toNat := by
    rw [multiply_mant, Nat.le_div_iff_mul_le (by norm_num)]
    have h3 := Nat.mul_le_mul hf1m heb
    have h4 : 2 ^ (63 - c) * 2 ^ 64 = 2 ^ (64 - c) * 2 ^ 63 := by rw [← pow_add, ← pow_add]; congr 1; omega
    exact le_trans (le_of_eq h4) (le_trans h3 (Nat.le_add_right _ _))
  have hf20 : (f1.multiply e).mant ≠ 0 := by
    intro h0
    have h9 : (f1.multiply e).mant.toNat = 0 := by rw [h0]; rfl
    have h8 : 0 < 2 ^ (63 - c) := by positivity
    exact absurd (le_trans h8 (h9 ▸ hf2)) (by norm_num)
  have hs := normalize_shift (by omega) hf2
  obtain ⟨-, n2, n3, n4, -⟩ := normalize_spec (f1.multiply e) hf20
  refine ⟨(f1.multiply e).normalize.1, errs * 2 ^ (f1.multiply e).normalize.2, ?_, ?_, ?_, n2, ?_, ?_, ?_⟩
  · rw [hA, Nat.cast_mul, Nat.cast_pow, Nat.cast_ofNat]
  · exact Nat.mul_pos he1 (by positivity)
  · exact le_trans (Nat.mul_le_mul_left _ (Nat.pow_le_pow_right (by norm_num) hs)) hE
  · rw [n3, multiply_neg, hneg]
  · rw [n4, multiply_exp]
    generalize (f1.multiply e).normalize.2 = s at hs ⊢
    clear hA hf2 n2 n3 n4 hf20 hf1 hm0 hm
    generalize f1.exp = a at *
    generalize e.exp = b at *
    omega
  · intro x hx
    obtain ⟨y, d, hd1, hd2, hd3⟩ := hy x hx
    obtain ⟨k1, k2⟩ := scale_err he hd1
    have hq : x * (10 : ℚ) ^ e10 = y * (2 : ℚ) ^ f1.exp * (10 : ℚ) ^ (-348 + 8 * (i : ℤ)) := by
      rw [hd3, hij, zpow_add₀ (by norm_num), zpow_natCast]
      ring
    rw [hq, k2]
    exact norm_err hf20 (lt_of_lt_of_le k1 hd2)

theorem assign_test (hF : GoFormat F) {f : ExtFloat} (hm : 2 ^ 63 ≤ f.mant.toNat) {E : ℕ} (hE : E ≤ 64)
    (h : assignTest f.mant (assignExtra f.exp (infoOf F)) E = true) :
    (cutBits F f.exp ≤ 63 → f.mant.toNat % 2 ^ cutBits F f.exp + E ≤ 2 ^ (cutBits F f.exp - 1) ∨
      2 ^ (cutBits F f.exp - 1) + E ≤ f.mant.toNat % 2 ^ cutBits F f.exp) ∧
    (cutBits F f.exp = 65 → f.mant.toNat + E ≤ 2 ^ 64) := by
  have hb := hF.bounds
  have hx : assignExtra f.exp (infoOf F) = cutBits F f.exp := by
    unfold assignExtra cutBits infoOf
    dsimp only
    split <;> omega
  rw [hx] at h
  unfold assignTest at h
  dsimp only at h
  refine window_test hF hm hE ?_ ?_ (fun hc => absurd h (by rw [if_pos hc]; decide))
  · show (BitVec.ofNat 64 (1 <<< (cutBits F f.exp - 1))).toNat = _
    rw [BitVec.toNat_ofNat, Nat.one_shiftLeft]
  · show (BitVec.ofNat 64 (1 <<< cutBits F f.exp) - 1).toNat = _
    rw [BitVec.toNat_sub, BitVec.toNat_ofNat, Nat.one_shiftLeft]
    show (2 ^ 64 - 1 + 2 ^ cutBits F f.exp % 2 ^ 64) % 2 ^ 64 = _
    have hp := Nat.two_pow_pos (cutBits F f.exp)
    generalize 2 ^ cutBits F f.exp = P at *
    omega

/-- `AssignDecimal` is right whenever it says so, apart from values near half the smallest subnormal. -/
theorem assign_correct (hF : GoFormat F) {m : BitVec 64} (hm : m ≠ 0) {e10 : ℤ} {neg trunc : Bool} {f : ExtFloat} {x : ℚ}
    (hx : DecArg m trunc x) (hok : assignDecimal m e10 neg trunc (infoOf F) = .ok (f, true))
    (h64 : cutBits F f.exp = 64 → (1 - 1 / 2 ^ 57) * (2 : ℚ) ^ (F.qmin - 1) < x * (10 : ℚ) ^ e10 → (2 : ℚ) ^ (F.qmin - 1) < x * (10 : ℚ) ^ e10) :
    F.RoundsTo neg (x * (10 : ℚ) ^ e10) (f.floatBits (infoOf F)).1.toNat ∧
      ((f.floatBits (infoOf F)).2 = true ↔ F.overflowAt ≤ x * (10 : ℚ) ^ e10) := by
  have hb := hF.bounds
  have hx0 : 0 ≤ x := by
    have hmn : (0 : ℚ) ≤ m.toNat := Nat.cast_nonneg _
    unfold DecArg at hx
    split at hx
    · linarith [hx.2.1]
    · rw [hx]; exact hmn
  by_cases hr : e10 < -348 ∨ 348 ≤ e10
  · rw [assign_out m neg trunc (infoOf F) hr] at hok
    injection hok with hok
    injection hok with _ hok
    exact absurd hok (by decide)
  · obtain ⟨g, E, hg, e1, e2, hgm, hgn, hge, hgx⟩ := assign_bounds m hm neg trunc (infoOf F) (show -348 ≤ e10 by omega) (show e10 < 348 by omega)
    rw [hg] at hok
    injection hok with hok
    injection hok with hfg htest
    subst hfg
    obtain ⟨q1, q2⟩ := hgx x hx
    obtain ⟨t1, t2⟩ := assign_test hF hgm e2 htest
    rw [← hgn]
    refine floatBits_near hF hgm hge e1 e2 (by positivity) q1 q2 t1 (fun h => h64 h ?_) t2
    have hcs := cut_step hF g.exp
    have hstep : stepOf F g.exp = 0 := by
      unfold cutBits at h
      unfold stepOf
      omega
    rw [hstep, h] at hcs
    have he : g.exp = F.qmin - 1 - 63 := by push_cast at hcs; omega
    refine lt_of_le_of_lt ?_ q1
    rw [he, zpow_sub₀ (by norm_num) (F.qmin - 1), show (63 : ℤ) = ((63 : ℕ) : ℤ) from rfl, zpow_natCast]
    have hA : (0 : ℚ) < (2 : ℚ) ^ (F.qmin - 1) := by positivity
    generalize (2 : ℚ) ^ (F.qmin - 1) = A at *
    have hM : (2 : ℚ) ^ 63 ≤ g.mant.toNat := by exact_mod_cast hgm
    have hE : (E : ℚ) ≤ 64 := by exact_mod_cast e2
    rw [mul_div_assoc', le_div_iff₀ (by positivity)]
    have : ((1 : ℚ) - 1 / 2 ^ 57) * 2 ^ 63 ≤ g.mant.toNat - E := by
      have : ((1 : ℚ) - 1 / 2 ^ 57) * 2 ^ 63 = 2 ^ 63 - 64 := by norm_num
      linarith
    nlinarith

theorem assign_test_false (hF : GoFormat F) {f : ExtFloat} (hm : 2 ^ 63 ≤ f.mant.toNat) {E : ℕ} (hE : E ≤ 64)
    (h : assignTest f.mant (assignExtra f.exp (infoOf F)) E = false) :
    (cutBits F f.exp ≤ 63 → 2 ^ (cutBits F f.exp - 1) < f.mant.toNat % 2 ^ cutBits F f.exp + E ∧
      f.mant.toNat % 2 ^ cutBits F f.exp < 2 ^ (cutBits F f.exp - 1) + E) ∧
    cutBits F f.exp ≠ 64 ∧ (cutBits F f.exp = 65 → 2 ^ 64 < f.mant.toNat + E) := by
  have hb := hF.bounds
  have hx : assignExtra f.exp (infoOf F) = cutBits F f.exp := by
    unfold assignExtra cutBits infoOf
    dsimp only
    split <;> omega
  rw [hx] at h
  unfold assignTest at h
  dsimp only at h
  refine window_converse hF hm hE ?_ ?_ (by_contra (fun hc => absurd h (by rw [if_neg hc]; decide)))
  · show (BitVec.ofNat 64 (1 <<< (cutBits F f.exp - 1))).toNat = _
    rw [BitVec.toNat_ofNat, Nat.one_shiftLeft]
  · show (BitVec.ofNat 64 (1 <<< cutBits F f.exp) - 1).toNat = _
    rw [BitVec.toNat_sub, BitVec.toNat_ofNat, Nat.one_shiftLeft]
    show (2 ^ 64 - 1 + 2 ^ cutBits F f.exp % 2 ^ 64) % 2 ^ 64 = _
    have hp := Nat.two_pow_pos (cutBits F f.exp)
    generalize 2 ^ cutBits F f.exp = P at *
    omega

/-- `AssignDecimal` gives up only near the middle between two neighbours. -/
theorem assign_gives_up (hF : GoFormat F) {m : BitVec 64} (hm : m ≠ 0) {e10 : ℤ} {neg trunc : Bool} {f : ExtFloat} {x : ℚ}
    (h1 : -348 ≤ e10) (h2 : e10 < 348)
    (hx : DecArg m trunc x) (hok : assignDecimal m e10 neg trunc (infoOf F) = .ok (f, false))
    (hlo : (2 : ℚ) ^ (F.qmin - 1) ≤ x * (10 : ℚ) ^ e10) :
    ∃ (N : ℕ) (z : ℤ), F.qmin ≤ z ∧ N < 2 ^ (F.t + 1) ∧ (2 ^ F.t ≤ N ∨ z = F.qmin) ∧
      |x * (10 : ℚ) ^ e10 - (N + 1 / 2) * (2 : ℚ) ^ z| ≤ x * (10 : ℚ) ^ e10 / 2 ^ 55 := by
  have hb := hF.bounds
  obtain ⟨g, E, hg, e1, e2, hgm, hgn, hge, hgx⟩ := assign_bounds m hm neg trunc (infoOf F) h1 h2
  rw [hg] at hok
  injection hok with hok
  injection hok with hfg htest
  subst hfg
  obtain ⟨q1, q2⟩ := hgx x hx
  obtain ⟨t1, t2, t3⟩ := assign_test_false hF hgm e2 htest
  clear hgx hg
  generalize x * (10 : ℚ) ^ e10 = q at *
  have hcs := cut_step hF g.exp
  have hlt := g.mant.isLt
  set X := cutBits F g.exp with hX
  set M := g.mant.toNat with hM
  set e := g.exp with he
  have hA : (0 : ℚ) < (2 : ℚ) ^ e := by positivity
  have hEq : (E : ℚ) ≤ 64 := by exact_mod_cast e2
  have hM63 : (2 : ℚ) ^ 63 ≤ M := by exact_mod_cast hgm
  have hMlt : (M : ℚ) + 1 ≤ 2 ^ 64 := by exact_mod_cast hlt
  -- `X` is at most 65
  have hX65 : X ≤ 65 := by
    by_contra hc
    have hs : stepOf F e = 0 := by
      rw [hX] at hc
      unfold cutBits at hc
      unfold stepOf
      omega
    have h3 : (2 : ℚ) ^ e ≤ (2 : ℚ) ^ (F.qmin - 66) := zpow_le_zpow_right₀ (by norm_num) (by omega)
    have h4 : (2 : ℚ) ^ (F.qmin - 66) = (2 : ℚ) ^ (F.qmin - 1) / 2 ^ 65 := by
      rw [show F.qmin - 66 = F.qmin - 1 - (65 : ℕ) by push_cast; ring, zpow_sub₀ (by norm_num), zpow_natCast]
    have hB : (0 : ℚ) < (2 : ℚ) ^ (F.qmin - 1) := by positivity
    have h5 : (M + E : ℚ) * (2 : ℚ) ^ e ≤ (2 ^ 64 + 64) * ((2 : ℚ) ^ (F.qmin - 1) / 2 ^ 65) := by
      rw [← h4]
      exact mul_le_mul (by linarith) h3 hA.le (by positivity)
    have h6 : (2 ^ 64 + 64 : ℚ) * ((2 : ℚ) ^ (F.qmin - 1) / 2 ^ 65) < (2 : ℚ) ^ (F.qmin - 1) := by
      rw [mul_div_assoc', div_lt_iff₀ (by positivity)]
      have : (2 : ℚ) ^ 64 + 64 < 2 ^ 65 := by norm_num
      nlinarith
    linarith
  -- the distance
  have near : ∀ Y : ℚ, |(M : ℚ) - Y| < E → |q - Y * (2 : ℚ) ^ e| ≤ q / 2 ^ 55 := by
    intro Y hY
    rw [abs_lt] at hY
    have hq : (2 ^ 63 - 64) * (2 : ℚ) ^ e ≤ q := by
      refine le_trans ?_ q1.le
      exact mul_le_mul_of_nonneg_right (by linarith) hA.le
    have h7 : |q - Y * (2 : ℚ) ^ e| ≤ 128 * (2 : ℚ) ^ e := by
      rw [abs_le]
      constructor <;> nlinarith
    refine le_trans h7 ?_
    rw [le_div_iff₀ (by positivity)]
    refine le_trans ?_ hq
    have : (128 : ℚ) * 2 ^ 55 ≤ 2 ^ 63 - 64 := by norm_num
    nlinarith
  rcases Nat.lt_or_ge 63 X with h63 | h63
  · have hX' : X = 65 := by omega
    have hs : stepOf F e = 0 := by
      rw [hX] at h63
      unfold cutBits at h63
      unfold stepOf
      omega
    have h65 := t3 hX'
    refine ⟨0, F.qmin, le_refl _, by positivity, Or.inr rfl, ?_⟩
    have h8 : (((0 : ℕ) : ℚ) + 1 / 2) * (2 : ℚ) ^ F.qmin = 2 ^ 64 * (2 : ℚ) ^ e := by
      rw [show F.qmin = e + (65 : ℕ) by omega, zpow_add₀ (by norm_num), zpow_natCast]
      push_cast
      ring
    rw [h8]
    apply near
    have h65' : (2 : ℚ) ^ 64 < M + E := by exact_mod_cast h65
    have : (0 : ℚ) < E := by exact_mod_cast e1
    rw [abs_lt]
    constructor <;> linarith
  · obtain ⟨a1, a2⟩ := t1 h63
    have hX1 : 63 - F.t ≤ X := by rw [hX]; unfold cutBits; omega
    refine ⟨M / 2 ^ X, F.qmin + stepOf F e, by omega, ?_, ?_, ?_⟩
    · rw [Nat.div_lt_iff_lt_mul (by positivity), ← pow_add]
      exact lt_of_lt_of_le hlt (Nat.pow_le_pow_right (by norm_num) (by omega))
    · by_cases hs : stepOf F e = 0
      · right; omega
      · left
        have hX2 : X = 63 - F.t := by
          rw [hX]
          unfold stepOf at hs
          unfold cutBits
          omega
        rw [Nat.le_div_iff_mul_le (by positivity), ← pow_add]
        refine le_trans (le_of_eq ?_) hgm
        congr 1
        omega
    · have h8 : (((M / 2 ^ X : ℕ) : ℚ) + 1 / 2) * (2 : ℚ) ^ (F.qmin + stepOf F e) =
          (((M / 2 ^ X * 2 ^ X + 2 ^ (X - 1) : ℕ)) : ℚ) * (2 : ℚ) ^ e := by
        rw [hcs, zpow_add₀ (by norm_num), zpow_natCast]
        push_cast
        have : (2 : ℚ) ^ X = 2 * 2 ^ (X - 1) := by rw [← pow_succ']; congr 1; omega
        rw [this]
        ring
      rw [h8]
      apply near
      have hdm := Nat.div_add_mod M (2 ^ X)
      have hdm' : M / 2 ^ X * 2 ^ X + M % 2 ^ X = M := by rw [mul_comm]; exact hdm
      rw [abs_lt]
      generalize M / 2 ^ X * 2 ^ X = D at *
      generalize M % 2 ^ X = r at *
      generalize 2 ^ (X - 1) = Q at *
      have b1 : (D : ℚ) + r = M := by exact_mod_cast hdm'
      have b2 : (Q : ℚ) < r + E := by exact_mod_cast a1
      have b3 : (r : ℚ) < Q + E := by exact_mod_cast a2
      push_cast
      constructor <;> linarith

theorem assign_total (m : BitVec 64) (e10 : ℤ) (neg trunc : Bool) (flt : FloatInfo) :
    ∃ f b, assignDecimal m e10 neg trunc flt = .ok (f, b) := by
  by_cases hr : e10 < -348 ∨ 348 ≤ e10
  · exact ⟨_, _, assign_out m neg trunc flt hr⟩
  · obtain ⟨i, j, e, f1, errs, -, -, -, -, -, h⟩ := assign_shape m neg trunc flt (show -348 ≤ e10 by omega) (show e10 < 348 by omega)
    exact ⟨_, _, h⟩

end GoFloat.Strconv
