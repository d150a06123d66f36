import Verif.Proofs.Big
/-
IEEE encodings as codes `n` on the number line, and the correctness of `toIEEE`
(the model of `big.Float.Float32/Float64`).
-/
namespace GoFloat
open Spec

namespace Spec.Format

/-- The code of the infinity. -/
def infCode (F : Format) : ℕ := (2 ^ F.w - 1) * 2 ^ F.t

/-- Magnitude of a code, by the formula of finite codes. -/
def magc (F : Format) (n : ℕ) : ℚ :=
  if n / 2 ^ F.t = 0 then (n : ℚ) * 2 ^ F.qmin
  else ((2 ^ F.t + n % 2 ^ F.t : ℕ) : ℚ) * 2 ^ (F.qmin + (n / 2 ^ F.t : ℕ) - 1)

theorem magc_eq (F : Format) {k N : ℕ} (h1 : N ≤ 2 ^ (F.t + 1)) (h2 : k = 0 ∨ 2 ^ F.t ≤ N) :
    F.magc (k * 2 ^ F.t + N) = N * (2 : ℚ) ^ (F.qmin + k) := by
  have hP := Nat.two_pow_pos F.t
  rw [pow_succ] at h1
  unfold magc
  rcases lt_or_ge N (2 ^ F.t) with hN | hN
  · have hk : k = 0 := by omega
    subst hk
    rw [if_pos (by simpa using hN)]; simp
  · rcases lt_or_eq_of_le h1 with hN2 | hN2
    · have hd : (k * 2 ^ F.t + N) / 2 ^ F.t = k + 1 := by
        rw [Nat.div_eq_iff hP, Nat.add_mul]; omega
      have hm : (k * 2 ^ F.t + N) % 2 ^ F.t = N - 2 ^ F.t := by
        have := Nat.div_add_mod (k * 2 ^ F.t + N) (2 ^ F.t)
        rw [hd, Nat.mul_add, Nat.mul_comm] at this; omega
      rw [if_neg (by omega), hd, hm, Nat.add_sub_cancel' hN]
      congr 2; push_cast; ring
    · have hd : (k * 2 ^ F.t + N) / 2 ^ F.t = k + 2 := by
        rw [hN2, Nat.div_eq_iff hP, Nat.add_mul]; omega
      have hm : (k * 2 ^ F.t + N) % 2 ^ F.t = 0 := by
        have := Nat.div_add_mod (k * 2 ^ F.t + N) (2 ^ F.t)
        rw [hd, Nat.mul_add, Nat.mul_comm] at this; omega
      rw [if_neg (by omega), hd, hm, hN2]
      push_cast
      rw [show F.qmin + ((k : ℤ) + 2) - 1 = (F.qmin + k) + 1 by ring, zpow_add_one₀ (by norm_num)]
      ring

/-- Every code is `k * 2^t + N` with `N` a `t+1`-bit number, normalised unless `k = 0`. -/
theorem code_split (F : Format) (n : ℕ) :
    ∃ k N, n = k * 2 ^ F.t + N ∧ N < 2 ^ (F.t + 1) ∧ (k = 0 ∨ 2 ^ F.t ≤ N) := by
  have hP := Nat.two_pow_pos F.t
  have hlt := Nat.mod_lt n hP
  have hdm := Nat.div_add_mod n (2 ^ F.t)
  rw [pow_succ]
  by_cases h : n / 2 ^ F.t = 0
  · rw [h] at hdm
    exact ⟨0, n, by simp, by omega, Or.inl rfl⟩
  · refine ⟨n / 2 ^ F.t - 1, 2 ^ F.t + n % 2 ^ F.t, ?_,
      by rw [Nat.mul_two]; exact Nat.add_lt_add_left hlt _, Or.inr (Nat.le_add_right _ _)⟩
    obtain ⟨a, ha⟩ : ∃ a, n / 2 ^ F.t = a + 1 := Nat.exists_eq_succ_of_ne_zero h
    rw [ha, Nat.mul_add, Nat.mul_comm] at hdm
    rw [ha, Nat.add_sub_cancel]; omega

theorem magc_nonneg (F : Format) (n : ℕ) : 0 ≤ F.magc n := by
  unfold magc; split <;> positivity

/-- The sign part of an encoding. -/
def signPart (F : Format) (neg : Bool) : ℕ := if neg then 2 ^ (F.t + F.w) else 0

theorem infCode_lt (F : Format) : F.infCode < 2 ^ (F.t + F.w) := by
  unfold infCode
  rw [pow_add, Nat.mul_comm (2 ^ F.t)]
  exact Nat.mul_lt_mul_of_pos_right (by have := Nat.two_pow_pos F.w; omega) (Nat.two_pow_pos _)

theorem code_fields (F : Format) (neg : Bool) {n : ℕ} (h : n < 2 ^ (F.t + F.w)) :
    (F.signPart neg + n) / 2 ^ (F.t + F.w) % 2 = (if neg then 1 else 0) ∧
    (F.signPart neg + n) / 2 ^ F.t % 2 ^ F.w = n / 2 ^ F.t ∧
    (F.signPart neg + n) % 2 ^ F.t = n % 2 ^ F.t := by
  have hP := Nat.two_pow_pos (F.t + F.w)
  have hPt := Nat.two_pow_pos F.t
  have hn : n / 2 ^ F.t < 2 ^ F.w := by
    rw [Nat.div_lt_iff_lt_mul hPt, ← pow_add, Nat.add_comm]; exact h
  cases neg with
  | false =>
    simp only [signPart, Bool.false_eq_true, if_false, Nat.zero_add]
    rw [Nat.div_eq_of_lt h, Nat.mod_eq_of_lt hn]; simp
  | true =>
    simp only [signPart, if_true]
    refine ⟨?_, ?_, ?_⟩
    · rw [Nat.add_div_left _ hP, Nat.div_eq_of_lt h]
    · rw [pow_add, Nat.mul_comm, Nat.add_comm, Nat.add_mul_div_right _ _ hPt, Nat.add_mod_right, Nat.mod_eq_of_lt hn]
    · rw [pow_add, Nat.mul_add_mod]

theorem decode_code (F : Format) (neg : Bool) {n : ℕ} (h : n < F.infCode) :
    F.decode (F.signPart neg + n) = .num neg (F.magc n) := by
  obtain ⟨h1, h2, h3⟩ := F.code_fields neg (h.trans F.infCode_lt)
  have hPt := Nat.two_pow_pos F.t
  have hd : n / 2 ^ F.t < 2 ^ F.w - 1 := by
    rw [Nat.div_lt_iff_lt_mul hPt]; exact h
  unfold decode
  simp only [h1, h2, h3]
  rw [if_neg (by omega)]
  have hs : decide ((if neg then 1 else 0) = 1) = neg := by cases neg <;> rfl
  rw [hs]
  unfold magc qmin
  split
  · rename_i h0
    congr 1
    have : n % 2 ^ F.t = n := by
      rw [Nat.mod_eq_of_lt]; rwa [Nat.div_eq_zero_iff_lt hPt] at h0
    rw [this, zpow_sub₀ (by norm_num) (1 - F.bias) (F.t : ℤ), zpow_natCast]; ring
  · congr 1
    rw [show (1 : ℤ) - F.bias - F.t + ((n / 2 ^ F.t : ℕ) : ℤ) - 1 = ((n / 2 ^ F.t : ℕ) : ℤ) - F.bias - F.t by ring,
      zpow_sub₀ (a := (2 : ℚ)) (by norm_num) (_ - _) (F.t : ℤ), zpow_natCast, Nat.cast_add, Nat.cast_pow, Nat.cast_ofNat]
    field_simp

theorem decode_inf (F : Format) (neg : Bool) : F.decode (F.signPart neg + F.infCode) = .inf neg := by
  obtain ⟨h1, h2, h3⟩ := F.code_fields neg F.infCode_lt
  have hPt := Nat.two_pow_pos F.t
  unfold decode
  simp only [h1, h2, h3]
  have : F.infCode / 2 ^ F.t = 2 ^ F.w - 1 := Nat.mul_div_cancel _ hPt
  rw [this, if_pos rfl]
  have : F.infCode % 2 ^ F.t = 0 := Nat.mul_mod_left _ _
  rw [this, if_pos rfl]
  cases neg <;> rfl

/-- Inverse of `decode_code`. -/
theorem code_of_decode (F : Format) {c : ℕ} {s : Bool} {r : ℚ} (h : F.decode c = .num s r) :
    ∃ n, n < F.infCode ∧ r = F.magc n ∧ c % 2 ^ (F.t + F.w) = n ∧ s = decide (c / 2 ^ (F.t + F.w) % 2 = 1) := by
  have hPt := Nat.two_pow_pos F.t
  have hPw := Nat.two_pow_pos F.w
  set n := c % 2 ^ (F.t + F.w) with hn
  have hnlt : n < 2 ^ (F.t + F.w) := Nat.mod_lt _ (Nat.two_pow_pos _)
  have hE : c / 2 ^ F.t % 2 ^ F.w = n / 2 ^ F.t := by
    rw [hn, pow_add, Nat.mod_mul_right_div_self]
  have hT : c % 2 ^ F.t = n % 2 ^ F.t := by
    rw [hn, pow_add, Nat.mod_mul_right_mod]
  have hs : ∃ b : Bool, decide (c / 2 ^ (F.t + F.w) % 2 = 1) = b := ⟨_, rfl⟩
  obtain ⟨b, hb⟩ := hs
  have hEle : n / 2 ^ F.t < 2 ^ F.w := by
    rw [Nat.div_lt_iff_lt_mul hPt, ← pow_add, Nat.add_comm]; exact hnlt
  have hne : n / 2 ^ F.t ≠ 2 ^ F.w - 1 := by
    intro he
    unfold decode at h
    simp only [hE, he, if_true] at h
    split at h <;> simp at h
  have hlt : n < F.infCode := by
    have : n / 2 ^ F.t < 2 ^ F.w - 1 := by omega
    rwa [Nat.div_lt_iff_lt_mul hPt] at this
  have hdec : F.decode c = F.decode (F.signPart b + n) := by
    obtain ⟨h1, h2, h3⟩ := F.code_fields b hnlt
    unfold decode
    simp only [hE, hT, hb, h1, h2, h3]
    cases b <;> rfl
  rw [hdec, decode_code F b hlt] at h
  simp only [Datum.num.injEq] at h
  exact ⟨n, hlt, h.2.symm, rfl, by rw [hb]; exact h.1.symm⟩

end Spec.Format

/-- A number in the binade of quantum exponent `qmin + k`, rounded to the nearest multiple of the quantum,
is nearest among all codes, and even in case of a tie. -/
theorem nearest_code (F : Format) {k N : ℕ} {v : ℚ}
    (hlo : k = 0 ∨ (2 : ℚ) ^ F.t * 2 ^ (F.qmin + k) ≤ v) (hhi : v ≤ (2 : ℚ) ^ (F.t + 1) * 2 ^ (F.qmin + k))
    (hN : (N : ℤ) = rhe (v / 2 ^ (F.qmin + k))) :
    N ≤ 2 ^ (F.t + 1) ∧ (k = 0 ∨ 2 ^ F.t ≤ N) ∧
    (∀ n', |v - N * (2 : ℚ) ^ (F.qmin + k)| ≤ |v - F.magc n'|) ∧
    (∀ n', F.magc n' ≠ N * (2 : ℚ) ^ (F.qmin + k) →
      |v - N * (2 : ℚ) ^ (F.qmin + k)| = |v - F.magc n'| → N % 2 = 0) := by
  set Q : ℚ := 2 ^ (F.qmin + k) with hQ
  have hQ0 : 0 < Q := by positivity
  have hup : N ≤ 2 ^ (F.t + 1) := by
    have : rhe (v / Q) ≤ ((2 ^ (F.t + 1) : ℕ) : ℤ) :=
      rhe_le_of_le (by rw [div_le_iff₀ hQ0]; push_cast; linarith)
    rw [← hN] at this; exact_mod_cast this
  have hdn : k = 0 ∨ 2 ^ F.t ≤ N := by
    rcases hlo with h | h
    · exact Or.inl h
    · right
      have : ((2 ^ F.t : ℕ) : ℤ) ≤ rhe (v / Q) := le_rhe_of_le (by rw [le_div_iff₀ hQ0]; push_cast; linarith)
      rw [← hN] at this; exact_mod_cast this
  -- distance to another multiple of the quantum
  have hmul : ∀ M : ℤ, |v - N * Q| ≤ |v - M * Q| ∧ ((M : ℚ) * Q ≠ N * Q → |v - N * Q| = |v - M * Q| → N % 2 = 0) := by
    intro M
    have hs : ∀ z : ℤ, |v - z * Q| = |v / Q - z| * Q := by
      intro z
      rw [← abs_of_pos hQ0, ← abs_mul, abs_of_pos hQ0]
      congr 1; field_simp
    have hNN : (N : ℚ) = ((rhe (v / Q) : ℤ) : ℚ) := by rw [← hN]; push_cast; rfl
    rw [hNN, hs, hs]
    refine ⟨mul_le_mul_of_nonneg_right (abs_sub_rhe_le _ _) hQ0.le, ?_⟩
    intro hne heq
    have hne' : M ≠ rhe (v / Q) := fun h => hne (by rw [h])
    have := rhe_even_of_tie hne' (mul_right_cancel₀ hQ0.ne' heq)
    rw [← hN] at this; omega
  have hlow : ∀ k' N' n' : ℕ, F.magc n' = N' * (2 : ℚ) ^ (F.qmin + k') → N' < 2 ^ (F.t + 1) → k' < k →
      F.magc n' ≤ (2 : ℚ) ^ F.t * Q := by
    intro k' N' n' hm hN'1 hk
    obtain ⟨d, hd⟩ : ∃ d, k = k' + 1 + d := ⟨k - k' - 1, by omega⟩
    have h1 : (N' : ℚ) ≤ 2 ^ (F.t + 1) := by exact_mod_cast hN'1.le
    have h2 : (2 : ℚ) ^ (F.qmin + k) = 2 ^ (F.qmin + k') * 2 * 2 ^ d := by
      rw [hd, ← zpow_natCast, ← zpow_add_one₀ (by norm_num), ← zpow_add₀ (by norm_num)]
      congr 1; push_cast; ring
    have h3 : (1 : ℚ) ≤ 2 ^ d := one_le_pow₀ (by norm_num)
    have h4 : (0 : ℚ) < 2 ^ (F.qmin + k') := by positivity
    rw [hm, hQ, h2]
    calc (N' : ℚ) * 2 ^ (F.qmin + k') ≤ 2 ^ (F.t + 1) * 2 ^ (F.qmin + k') := mul_le_mul_of_nonneg_right h1 h4.le
      _ = 2 ^ F.t * (2 ^ (F.qmin + k') * 2 * 1) := by rw [pow_succ]; ring
      _ ≤ _ := by gcongr
  have hhigh : ∀ k' N' n' : ℕ, F.magc n' = N' * (2 : ℚ) ^ (F.qmin + k') → (k' = 0 ∨ 2 ^ F.t ≤ N') → k < k' →
      (2 : ℚ) ^ (F.t + 1) * Q ≤ F.magc n' := by
    intro k' N' n' hm hN'2 hk
    obtain ⟨d, hd⟩ : ∃ d, k' = k + 1 + d := ⟨k' - k - 1, by omega⟩
    have hk0 : k' ≠ 0 := by omega
    have h1 : (2 : ℚ) ^ F.t ≤ N' := by exact_mod_cast hN'2.resolve_left hk0
    have h2 : (2 : ℚ) ^ (F.qmin + k') = 2 ^ (F.qmin + k) * 2 * 2 ^ d := by
      rw [hd, ← zpow_natCast, ← zpow_add_one₀ (by norm_num), ← zpow_add₀ (by norm_num)]
      congr 1; push_cast; ring
    have h3 : (1 : ℚ) ≤ 2 ^ d := one_le_pow₀ (by norm_num)
    rw [hm, h2, ← hQ]
    calc (2 : ℚ) ^ (F.t + 1) * Q = 2 ^ F.t * (Q * 2 * 1) := by rw [pow_succ]; ring
      _ ≤ N' * (Q * 2 * 2 ^ d) := by gcongr
  refine ⟨hup, hdn, ?_, ?_⟩
  all_goals intro n'
  all_goals obtain ⟨k', N', hn', hN'1, hN'2⟩ := F.code_split n'
  all_goals have hm := F.magc_eq (k := k') (N := N') hN'1.le hN'2
  all_goals rw [← hn'] at hm
  all_goals replace hlow := hlow k' N' n' hm hN'1
  all_goals replace hhigh := hhigh k' N' n' hm hN'2
  · rcases lt_trichotomy k' k with hk | hk | hk
    · have h := hlow hk
      have h1 := hlo.resolve_left (by omega)
      have h2 := (hmul ((2 ^ F.t : ℕ) : ℤ)).1
      push_cast at h2
      refine h2.trans ?_
      rw [abs_of_nonneg (by linarith), abs_of_nonneg (by linarith)]; linarith
    · rw [hm, hk]
      have := (hmul (N' : ℤ)).1
      simpa using this
    · have h := hhigh hk
      have h2 := (hmul ((2 ^ (F.t + 1) : ℕ) : ℤ)).1
      push_cast at h2
      refine h2.trans ?_
      rw [abs_of_nonpos (by linarith), abs_of_nonpos (by linarith)]; linarith
  · intro hne heq
    rcases lt_trichotomy k' k with hk | hk | hk
    · have h := hlow hk
      have h1 := hlo.resolve_left (by omega)
      have h2 := hmul ((2 ^ F.t : ℕ) : ℤ)
      push_cast at h2
      have e1 : |v - 2 ^ F.t * Q| ≤ |v - F.magc n'| := by
        rw [abs_of_nonneg (by linarith), abs_of_nonneg (by linarith)]; linarith
      have e2 : |v - 2 ^ F.t * Q| = |v - F.magc n'| := le_antisymm e1 (heq ▸ h2.1)
      have e3 : F.magc n' = 2 ^ F.t * Q := by
        rw [abs_of_nonneg (by linarith), abs_of_nonneg (by linarith)] at e2; linarith
      exact h2.2 (e3 ▸ hne) (heq.trans e2.symm)
    · have h2 := (hmul (N' : ℤ)).2
      rw [hm, hk] at hne heq
      exact h2 (by rwa [Int.cast_natCast]) (by rwa [Int.cast_natCast])
    · have h := hhigh hk
      have h2 := hmul ((2 ^ (F.t + 1) : ℕ) : ℤ)
      push_cast at h2
      have e1 : |v - 2 ^ (F.t + 1) * Q| ≤ |v - F.magc n'| := by
        rw [abs_of_nonpos (by linarith), abs_of_nonpos (by linarith)]; linarith
      have e2 : |v - 2 ^ (F.t + 1) * Q| = |v - F.magc n'| := le_antisymm e1 (heq ▸ h2.1)
      have e3 : F.magc n' = 2 ^ (F.t + 1) * Q := by
        rw [abs_of_nonpos (by linarith), abs_of_nonpos (by linarith)] at e2; linarith
      exact h2.2 (e3 ▸ hne) (heq.trans e2.symm)

end GoFloat
