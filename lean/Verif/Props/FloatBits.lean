import Verif.Proofs.Sample
import Verif.Spec.Away
import Verif.Props.AssignDecimal
import Verif.Props.ShortestExact
/-
Property C87: `floatBits` of internal/strconv/extfloat.go.
-/
namespace GoFloat.Strconv
open Spec

variable {F : Format}

theorem signed_add {s t : Bool} (h : s ≠ t) (a b : ℚ) : |signed s a - signed t b| = |a + b| := by
  cases s <;> cases t
  · exact absurd rfl h
  · simp [signed]
  · simp only [signed, if_true, Bool.false_eq_true, if_false]
    rw [← abs_neg]
    congr 1
    ring
  · exact absurd rfl h

/-- From the midpoint below, which is included, up to the midpoint above, which is not. -/
theorem roundsAway_mid (hF : GoFormat F) (neg : Bool) {n : ℕ} {q : ℚ} (hq : 0 < q) (hlo : n ≠ 0 → F.magc (n - 1) + F.magc n ≤ 2 * q)
    (hhi : 2 * q < F.magc n + F.magc (n + 1)) :
    F.RoundsAway neg q (F.signPart neg + min n F.infCode) ∧ (F.infCode ≤ n ↔ F.overflowAt ≤ q) := by
  have hb := hF.bounds
  have hinf := magc_infCode_add F (by omega)
  have hmono := F.magc_strictMono.monotone
  by_cases h : F.infCode ≤ n
  · have hi0 : 0 < F.infCode := by
      unfold Format.infCode
      have : 2 ^ 5 ≤ 2 ^ F.w := Nat.pow_le_pow_right (by norm_num) hb.2.2.1
      exact Nat.mul_pos (by omega) (Nat.two_pow_pos _)
    have h1 := hlo (by omega)
    have h2 := hmono (show F.infCode - 1 ≤ n - 1 by omega)
    have h3 := hmono h
    have hov : F.overflowAt ≤ q := by linarith
    refine ⟨?_, iff_of_true h hov⟩
    rw [min_eq_right h]
    unfold Format.RoundsAway
    rw [if_pos hov]
    exact F.decode_inf neg
  · have hlt : n < F.infCode := by omega
    rw [min_eq_left hlt.le]
    have h2 := hmono (show n ≤ F.infCode - 1 by omega)
    have h3 := hmono (show n + 1 ≤ F.infCode by omega)
    have hov : ¬ F.overflowAt ≤ q := not_le.2 (by linarith)
    refine ⟨?_, iff_of_false h hov⟩
    unfold Format.RoundsAway
    rw [if_neg hov]
    -- the distance to another number
    have same : ∀ j, j ≠ n → |q - F.magc n| ≤ |q - F.magc j| ∧ (|q - F.magc n| = |q - F.magc j| → j < n) := by
      intro j hj
      rcases lt_or_gt_of_ne hj with hj | hj
      · have g1 := hlo (by omega)
        have g2 := hmono (show j ≤ n - 1 by omega)
        have g3 := F.magc_strictMono (show n - 1 < n by omega)
        refine ⟨?_, fun _ => hj⟩
        rw [abs_of_nonneg (show 0 ≤ q - F.magc j by linarith), abs_le]
        constructor <;> linarith
      · have g2 := hmono (show n + 1 ≤ j by omega)
        have g3 := F.magc_strictMono (show n < n + 1 by omega)
        have key : |q - F.magc n| < |q - F.magc j| := by
          rw [abs_of_neg (show q - F.magc j < 0 by linarith), abs_lt]
          constructor <;> linarith
        exact ⟨key.le, fun he => absurd he key.ne⟩
    have h0 : F.magc 0 = 0 := by unfold Format.magc; simp
    have hn0 := F.magc_nonneg n
    have toZero : |q - F.magc n| ≤ q := by
      by_cases hn : n = 0
      · rw [hn, h0, sub_zero, abs_of_pos hq]
      · have := (same 0 (Ne.symm hn)).1
        rwa [h0, sub_zero, abs_of_pos hq] at this
    refine ⟨_, F.decode_code neg hlt, ?_, ?_⟩
    · intro c' s r' hd
      obtain ⟨j, -, rfl, -, -⟩ := F.code_of_decode hd
      rw [signed_sub]
      have hj0 := F.magc_nonneg j
      by_cases hs : neg = s
      · subst hs
        rw [signed_sub]
        by_cases hj : j = n
        · rw [hj]
        · exact (same j hj).1
      · rw [signed_add hs, abs_of_nonneg (show 0 ≤ q + F.magc j by linarith)]
        linarith
    · intro c' s r' hd hne heq
      obtain ⟨j, -, rfl, -, -⟩ := F.code_of_decode hd
      rw [signed_sub] at heq
      have hj0 := F.magc_nonneg j
      by_cases hs : neg = s
      · subst hs
        rw [signed_sub] at heq
        have hj : j ≠ n := by
          rintro rfl
          exact hne rfl
        exact F.magc_strictMono ((same j hj).2 heq)
      · rw [signed_add hs, abs_of_nonneg (show 0 ≤ q + F.magc j by linarith)] at heq
        by_contra hc
        have hz : F.magc j = 0 := by linarith
        have hz' : F.magc n = 0 := by linarith
        apply hne
        rw [hz, hz']
        cases s <;> cases neg <;> simp [signed]

/-- The midpoints around the code that `floatBits` returns. -/
theorem floatBits_mid (hF : GoFormat F) {f : ExtFloat} (hm : 2 ^ 63 ≤ f.mant.toNat) {n : ℕ}
    (hn : n = stepOf F f.exp * 2 ^ F.t + roundHalfUp f.mant.toNat (cutBits F f.exp)) :
    (n ≠ 0 → F.magc (n - 1) + F.magc n ≤ 2 * (f.mant.toNat * (2 : ℚ) ^ f.exp)) ∧
      2 * (f.mant.toNat * (2 : ℚ) ^ f.exp) < F.magc n + F.magc (n + 1) := by
  have hb := hF.bounds
  have hlt := f.mant.isLt
  have hcs := cut_step hF f.exp
  have hX : 11 ≤ cutBits F f.exp := by unfold cutBits; omega
  have hP := Nat.two_pow_pos F.t
  have hP1 : 2 ^ (F.t + 1) = 2 * 2 ^ F.t := by rw [pow_succ, mul_comm]
  set M := f.mant.toNat with hM
  set e := f.exp
  set X := cutBits F e with hXd
  set k := stepOf F e with hkd
  have hpow : (2 : ℚ) ^ (F.qmin + k) = 2 ^ X * (2 : ℚ) ^ e := by
    rw [hcs, add_comm, zpow_add₀ (by norm_num), zpow_natCast]
  have hu : (0 : ℚ) < (2 : ℚ) ^ e := by positivity
  have hU : (0 : ℚ) < (2 : ℚ) ^ (F.qmin + k) := by positivity
  have hk63 : k ≠ 0 → X = 63 - F.t := by
    intro h
    rw [hXd]; rw [hkd] at h
    unfold cutBits; unfold stepOf at h
    omega
  have hXt : 64 ≤ F.t + 1 + X := by rw [hXd]; unfold cutBits; omega
  have hNle : roundHalfUp M X ≤ 2 ^ (F.t + 1) :=
    roundHalfUp_le (lt_of_lt_of_le hlt (Nat.pow_le_pow_right (by norm_num) hXt))
  have hdm := Nat.div_add_mod M (2 ^ X)
  have hml := Nat.mod_lt M (Nat.two_pow_pos X)
  have hH : 2 ^ X = 2 * 2 ^ (X - 1) := by rw [← pow_succ']; congr 1; omega
  have hkM : k = 0 ∨ 2 ^ F.t ≤ M / 2 ^ X := by
    by_cases h : k = 0
    · exact Or.inl h
    · right
      rw [hk63 h, Nat.le_div_iff_mul_le (Nat.two_pow_pos _), ← pow_add, show F.t + (63 - F.t) = 63 by omega]
      exact hm
  have hbit : M.testBit (X - 1) = decide (2 ^ (X - 1) ≤ M % 2 ^ X) := by
    rw [Nat.testBit_eq_decide_div_mod_eq]
    have h3 : M / 2 ^ (X - 1) % 2 = M % 2 ^ X / 2 ^ (X - 1) := by
      rw [hH, mul_comm, Nat.mod_mul_right_div_self]
    rw [h3]
    by_cases h : 2 ^ (X - 1) ≤ M % 2 ^ X
    · have : M % 2 ^ X / 2 ^ (X - 1) = 1 := Nat.div_eq_of_lt_le (by omega) (by omega)
      simp [h, this]
    · have : M % 2 ^ X / 2 ^ (X - 1) = 0 := Nat.div_eq_of_lt (by omega)
      simp [h, this]
  -- the number in units of the last place
  set N := roundHalfUp M X with hNd
  have hround : (2 * N : ℤ) * 2 ^ X - 2 ^ X ≤ 2 * M ∧ (2 * M : ℤ) < 2 * N * 2 ^ X + 2 ^ X := by
    have h1 : N = M / 2 ^ X + if 2 ^ (X - 1) ≤ M % 2 ^ X then 1 else 0 := by
      rw [hNd]
      unfold roundHalfUp
      rw [hbit]
      simp only [decide_eq_true_eq]
    have hdz : (2 ^ X : ℤ) * (M / 2 ^ X : ℕ) + (M % 2 ^ X : ℕ) = M := by exact_mod_cast hdm
    have hHz : (2 ^ X : ℤ) = 2 * 2 ^ (X - 1) := by exact_mod_cast hH
    have hmz : ((M % 2 ^ X : ℕ) : ℤ) < 2 ^ X := by exact_mod_cast hml
    have h0z : (0 : ℤ) ≤ (M % 2 ^ X : ℕ) := Int.natCast_nonneg _
    by_cases h : 2 ^ (X - 1) ≤ M % 2 ^ X
    · rw [if_pos h] at h1
      have hz : (2 ^ (X - 1) : ℤ) ≤ (M % 2 ^ X : ℕ) := by exact_mod_cast h
      rw [h1]
      push_cast at hdz hmz hz h0z ⊢
      constructor <;> linarith
    · rw [if_neg h, add_zero] at h1
      have hz : ((M % 2 ^ X : ℕ) : ℤ) < 2 ^ (X - 1) := by exact_mod_cast not_le.1 h
      rw [h1]
      push_cast at hdz hmz hz h0z ⊢
      constructor <;> linarith
  have hlo : ((N : ℚ) - 1 / 2) * (2 : ℚ) ^ (F.qmin + k) ≤ M * (2 : ℚ) ^ e := by
    rw [hpow, ← mul_assoc]
    refine mul_le_mul_of_nonneg_right ?_ hu.le
    have : (2 * N : ℚ) * 2 ^ X - 2 ^ X ≤ 2 * M := by exact_mod_cast hround.1
    linarith
  have hhi : M * (2 : ℚ) ^ e < ((N : ℚ) + 1 / 2) * (2 : ℚ) ^ (F.qmin + k) := by
    rw [hpow, ← mul_assoc]
    refine mul_lt_mul_of_pos_right ?_ hu
    have : (2 * M : ℚ) < 2 * N * 2 ^ X + 2 ^ X := by exact_mod_cast hround.2
    linarith
  have hbin : k = 0 ∨ (2 : ℚ) ^ F.t * (2 : ℚ) ^ (F.qmin + k) ≤ M * (2 : ℚ) ^ e := by
    rcases hkM with h | h
    · exact Or.inl h
    · right
      rw [hpow, ← mul_assoc]
      refine mul_le_mul_of_nonneg_right ?_ hu.le
      have h4 : 2 ^ F.t * 2 ^ X ≤ M := by
        calc 2 ^ F.t * 2 ^ X ≤ M / 2 ^ X * 2 ^ X := Nat.mul_le_mul_right _ h
          _ ≤ M := Nat.div_mul_le_self _ _
      exact_mod_cast h4
  have hkN : k = 0 ∨ 2 ^ F.t ≤ N := by
    rcases hkM with h | h
    · exact Or.inl h
    · right
      refine h.trans ?_
      rw [hNd]
      unfold roundHalfUp
      omega
  have hval := F.magc_eq hNle hkN
  generalize (M : ℚ) * (2 : ℚ) ^ e = q at *
  subst hn
  constructor
  · intro h0
    rw [hval]
    have hN0 : N ≠ 0 := by
      intro hc
      rcases hkN with hk | hk
      · rw [hc, hk] at h0; simp at h0
      · omega
    by_cases hcase : k = 0 ∨ 2 ^ F.t < N
    · have h1 : k * 2 ^ F.t + N - 1 = k * 2 ^ F.t + (N - 1) := by omega
      rw [h1, F.magc_eq (by omega) (by omega), Nat.cast_sub (by omega)]
      push_cast
      linarith
    · have hk0 : k ≠ 0 := by omega
      have hNe : N = 2 ^ F.t := by omega
      have h1 := magc_pred' F hk0
      rw [hNe, h1]
      have hu2 : (2 : ℚ) ^ (F.qmin + k - 1) = (2 : ℚ) ^ (F.qmin + k) / 2 := by rw [zpow_sub_one₀ (by norm_num)]; rfl
      have h5 := hbin.resolve_left hk0
      rw [hu2]
      push_cast
      linarith
  · rw [hval]
    by_cases hcase : N < 2 ^ (F.t + 1)
    · rw [magc_succ F hcase hkN]
      linarith
    · have hNe : N = 2 ^ (F.t + 1) := by omega
      have h1 : k * 2 ^ F.t + N + 1 = (k + 1) * 2 ^ F.t + 2 ^ F.t + 1 := by rw [hNe, hP1]; ring
      rw [h1, magc_succ F (by omega) (Or.inr le_rfl)]
      have hu2 : (2 : ℚ) ^ (F.qmin + (k + 1 : ℕ)) = (2 : ℚ) ^ (F.qmin + k) * 2 := by
        push_cast
        rw [← add_assoc, zpow_add_one₀ (by norm_num)]
      have hNq : (N : ℚ) = 2 * 2 ^ F.t := by rw [hNe, hP1]; push_cast; rfl
      rw [hu2]
      rw [hNq] at hhi ⊢
      push_cast
      nlinarith

theorem floatBits_normalize {f : ExtFloat} (h : f.mant ≠ 0) (flt : FloatInfo) : f.floatBits flt = f.normalize.1.floatBits flt := by
  have h1 := normalize_self (normalize_spec f h).2.1
  unfold ExtFloat.floatBits
  rw [h1]

/-- What `floatBits` returns, by the number of the code. -/
theorem floatBits_code (hF : GoFormat F) {f : ExtFloat} (hm : f.mant ≠ 0) (he : -2 ^ 59 ≤ f.exp) :
    ∃ n, (f.floatBits (infoOf F)).1.toNat = F.signPart f.neg + min n F.infCode ∧ ((f.floatBits (infoOf F)).2 = true ↔ F.infCode ≤ n) ∧
      (n ≠ 0 → F.magc (n - 1) + F.magc n ≤ 2 * (f.mant.toNat * (2 : ℚ) ^ f.exp)) ∧
      2 * (f.mant.toNat * (2 : ℚ) ^ f.exp) < F.magc n + F.magc (n + 1) := by
  obtain ⟨h1, h2, h3, h4, -, h5, h6⟩ := normalize_spec f hm
  have heq := floatBits_eq hF h2 (by rw [h4]; omega)
  rw [Prod.mk.injEq] at heq
  obtain ⟨g1, g2⟩ := floatBits_mid hF h2 rfl
  have hv : (f.normalize.1.mant.toNat : ℚ) * (2 : ℚ) ^ f.normalize.1.exp = f.mant.toNat * (2 : ℚ) ^ f.exp := h1
  rw [hv] at g1 g2
  refine ⟨_, ?_, ?_, g1, g2⟩
  · rw [floatBits_normalize hm, heq.1, h3]
  · rw [floatBits_normalize hm, heq.2, decide_eq_true_iff]

/-- C87: `floatBits` rounds every extended float that is not zero to the nearest float of the format, ties away from zero, and
reports an overflow exactly if the result is an infinity, which it is from the overflow threshold on. -/
theorem C87_floatBits {F : Format} {flt : FloatInfo} (hF : InfoFor F flt) (f : ExtFloat) (hm : f.mant ≠ 0) (he : -2 ^ 59 ≤ f.exp) :
    F.RoundsAway f.neg (f.mant.toNat * (2 : ℚ) ^ f.exp) (f.floatBits flt).1.toNat ∧
      ((f.floatBits flt).2 = true ↔ F.overflowAt ≤ f.mant.toNat * (2 : ℚ) ^ f.exp) := by
  obtain ⟨hG, rfl⟩ := hF.go
  obtain ⟨n, h1, h2, h3, h4⟩ := floatBits_code hG hm he
  have hpos : 0 < (f.mant.toNat : ℚ) * (2 : ℚ) ^ f.exp := by
    have : 0 < f.mant.toNat := by
      rcases Nat.eq_zero_or_pos f.mant.toNat with h0 | h0
      · exact absurd (BitVec.eq_of_toNat_eq (by simpa using h0)) hm
      · exact h0
    positivity
  obtain ⟨g1, g2⟩ := roundsAway_mid hG f.neg hpos h3 h4
  rw [h1, h2]
  exact ⟨g1, g2⟩

example := C87_floatBits (F := half) (.inl ⟨rfl, rfl⟩) ⟨0xFFF0000000000000, -63, true⟩ (by decide) (by norm_num)

/-- Rounding with ties away from zero leaves no choice. -/
theorem RoundsAway.unique {F : Format} {neg : Bool} {m : ℚ} {c c' : ℕ} (h : F.RoundsAway neg m c) (h' : F.RoundsAway neg m c') :
    F.decode c = F.decode c' := by
  unfold Format.RoundsAway at h h'
  by_cases ho : F.overflowAt ≤ m
  · rw [if_pos ho] at h h'
    rw [h, h']
  · rw [if_neg ho] at h h'
    obtain ⟨r, hd, hn, ht⟩ := h
    obtain ⟨r', hd', hn', ht'⟩ := h'
    rw [hd, hd']
    by_cases hs : signed neg r = signed neg r'
    · have : r = r' := by
        unfold signed at hs
        cases neg <;> simpa using hs
      rw [this]
    · have he := le_antisymm (hn _ _ _ hd') (hn' _ _ _ hd)
      have h1 := ht _ _ _ hd' (fun h => hs h.symm) he
      have h2 := ht' _ _ _ hd hs he.symm
      exact absurd h1 (not_lt.2 h2.le)

/-- C87: the result is the only float that the rounding allows. -/
theorem C87_determined {F : Format} {flt : FloatInfo} (hF : InfoFor F flt) (f : ExtFloat) (hm : f.mant ≠ 0) (he : -2 ^ 59 ≤ f.exp) {c : ℕ}
    (hc : F.RoundsAway f.neg (f.mant.toNat * (2 : ℚ) ^ f.exp) c) : F.decode c = F.decode (f.floatBits flt).1.toNat :=
  RoundsAway.unique hc (C87_floatBits hF f hm he).1

example := C87_determined (F := half) (.inl ⟨rfl, rfl⟩) ⟨0xFFF0000000000000, -63, true⟩ (by decide) (by norm_num)
  (C87_floatBits (F := half) (.inl ⟨rfl, rfl⟩) ⟨0xFFF0000000000000, -63, true⟩ (by decide) (by norm_num)).1

/-- C87: it is the nearest float with ties to even, as IEEE 754 has it, unless the number lies half way between two neighbours, of
which the one returned, the greater in magnitude, is odd. -/
theorem C87_even_iff {F : Format} {flt : FloatInfo} (hF : InfoFor F flt) (f : ExtFloat) (hm : f.mant ≠ 0) (he : -2 ^ 59 ≤ f.exp) :
    F.RoundsTo f.neg (f.mant.toNat * (2 : ℚ) ^ f.exp) (f.floatBits flt).1.toNat ↔
      ¬ ((f.floatBits flt).1.toNat % 2 = 1 ∧ ∃ a r, F.decode (f.floatBits flt).1.toNat = .num f.neg r ∧ F.Adjacent a r ∧
        2 * (f.mant.toNat * (2 : ℚ) ^ f.exp) = a + r) := by
  obtain ⟨hG, rfl⟩ := hF.go
  have hb := hG.bounds
  obtain ⟨n, h1, -, h3, h4⟩ := floatBits_code hG hm he
  rw [h1]
  have hq : 0 ≤ (f.mant.toNat : ℚ) * (2 : ℚ) ^ f.exp := by positivity
  generalize (f.mant.toNat : ℚ) * (2 : ℚ) ^ f.exp = q at *
  have hev := infCode_even F (by omega)
  have hsg := signPart_even F (by omega) f.neg
  have hinf := magc_infCode_add F (by omega)
  have hmono := F.magc_strictMono.monotone
  by_cases h : F.infCode ≤ n
  · rw [min_eq_right h]
    refine iff_of_true ?_ ?_
    · have hi0 : 0 < F.infCode := by
        unfold Format.infCode
        have : 2 ^ 5 ≤ 2 ^ F.w := Nat.pow_le_pow_right (by norm_num) hb.2.2.1
        exact Nat.mul_pos (by omega) (Nat.two_pow_pos _)
      have g1 := h3 (by omega)
      have g2 := hmono (show F.infCode - 1 ≤ n - 1 by omega)
      have g3 := hmono h
      unfold Format.RoundsTo
      rw [if_pos (by linarith)]
      exact F.decode_inf f.neg
    · rintro ⟨ho, -⟩
      omega
  · have hlt : n < F.infCode := by omega
    rw [min_eq_left hlt.le, roundsTo_iff F (by omega) (by omega) f.neg hlt hq]
    have hdec := F.decode_code f.neg hlt
    constructor
    · rintro ⟨g1, -⟩ ⟨ho, a, r, hr, hA, he2⟩
      rw [hdec] at hr
      injection hr with _ hr
      subst hr
      have hn0 : n ≠ 0 := by
        intro hn
        rw [hn] at ho
        omega
      have hadj := adjacent_magc (F := F) (by omega) (i := n - 1) (by omega)
      rw [Nat.sub_add_cancel (by omega)] at hadj
      rw [adjacent_unique_left hA hadj] at he2
      have := (g1 hn0).2 (by omega)
      linarith
    · intro hno
      refine ⟨fun hn0 => ⟨h3 hn0, fun ho => lt_of_le_of_ne (h3 hn0) fun hc => hno ⟨by omega, _, _, hdec, ?_, hc.symm⟩⟩, h4.le, fun _ => h4⟩
      have hadj := adjacent_magc (F := F) (by omega) (i := n - 1) (by omega)
      rwa [Nat.sub_add_cancel (by omega)] at hadj

example := C87_even_iff (F := half) (.inl ⟨rfl, rfl⟩) ⟨0xFFF0000000000000, -63, true⟩ (by decide) (by norm_num)

/-- C87: an extended float with mantissa 0 gives a zero with its sign, without overflow, unless its exponent is so great that it gives
an infinity. -/
theorem C87_zero {F : Format} {flt : FloatInfo} (hF : InfoFor F flt) (f : ExtFloat) (hm : f.mant = 0) :
    if f.exp + 63 + F.bias ≥ 2 ^ F.w - 1 then F.decode (f.floatBits flt).1.toNat = .inf f.neg ∧ (f.floatBits flt).2 = true
    else F.decode (f.floatBits flt).1.toNat = .num f.neg 0 ∧ (f.floatBits flt).2 = false := by
  have hG := hF.go.1
  have hn : f.normalize.1 = f := by
    unfold ExtFloat.normalize
    rw [if_pos hm]
  have hsh : ∀ n : ℕ, (0 : BitVec 64) >>> n = 0 := by intro n; simp
  obtain ⟨mant, e, neg⟩ := f
  dsimp only at hm
  subst hm
  have key : ∀ b : ℤ, ∃ e' : ℤ, (if e + 63 < b + 1 then ((0 : BitVec 64), e + 63 + (b + 1 - (e + 63))) else (0, e + 63)) = (0, e') ∧
      (∀ x : ℤ, 1 < x → (e' - b ≥ x ↔ e + 63 - b ≥ x)) := by
    intro b
    split_ifs with h
    · exact ⟨_, rfl, fun x hx => by omega⟩
    · exact ⟨_, rfl, fun x hx => Iff.rfl⟩
  obtain ⟨e', h1, h2⟩ := key flt.bias
  have hinf := F.decode_inf neg
  have hzero := F.decode_code neg (n := 0) (by rcases hG with rfl | rfl | rfl <;> decide)
  rw [show F.magc 0 = 0 by unfold Format.magc; simp] at hzero
  unfold ExtFloat.floatBits
  rw [hn]
  dsimp only
  rw [hsh, h1]
  dsimp only
  rcases hF with ⟨rfl, rfl⟩ | ⟨rfl, rfl⟩ | ⟨rfl, rfl⟩
  · have h3 := h2 (2 ^ float16info.expbits - 1) (by decide)
    have c1 : ¬ ((0 : BitVec 64) &&& 1 <<< (62 - float16info.mantbits) ≠ 0) := by decide
    have c4 : (0 : BitVec 64) >>> (63 - float16info.mantbits) = 0 := by decide
    have c5 : (0 : BitVec 64) &&& 1 <<< float16info.mantbits = 0 := by decide
    have c6 : ¬ ((0 : BitVec 64) = 2 <<< float16info.mantbits) := by decide
    by_cases g : e + 63 + half.bias ≥ 2 ^ half.w - 1
    · rw [if_pos g]
      have g' : e' - float16info.bias ≥ 2 ^ float16info.expbits - 1 := h3.2 g
      simp only [if_neg c1, c4, if_neg c6, if_pos g']
      cases neg
      · exact ⟨hinf, trivial⟩
      · exact ⟨hinf, trivial⟩
    · rw [if_neg g]
      have g' : ¬ (e' - float16info.bias ≥ 2 ^ float16info.expbits - 1) := fun h => g (h3.1 h)
      simp only [if_neg c1, c4, if_neg c6, if_neg g', if_pos c5]
      cases neg
      · exact ⟨hzero, trivial⟩
      · exact ⟨hzero, trivial⟩
  · have h3 := h2 (2 ^ float32info.expbits - 1) (by decide)
    have c1 : ¬ ((0 : BitVec 64) &&& 1 <<< (62 - float32info.mantbits) ≠ 0) := by decide
    have c4 : (0 : BitVec 64) >>> (63 - float32info.mantbits) = 0 := by decide
    have c5 : (0 : BitVec 64) &&& 1 <<< float32info.mantbits = 0 := by decide
    have c6 : ¬ ((0 : BitVec 64) = 2 <<< float32info.mantbits) := by decide
    by_cases g : e + 63 + single.bias ≥ 2 ^ single.w - 1
    · rw [if_pos g]
      have g' : e' - float32info.bias ≥ 2 ^ float32info.expbits - 1 := h3.2 g
      simp only [if_neg c1, c4, if_neg c6, if_pos g']
      cases neg
      · exact ⟨hinf, trivial⟩
      · exact ⟨hinf, trivial⟩
    · rw [if_neg g]
      have g' : ¬ (e' - float32info.bias ≥ 2 ^ float32info.expbits - 1) := fun h => g (h3.1 h)
      simp only [if_neg c1, c4, if_neg c6, if_neg g', if_pos c5]
      cases neg
      · exact ⟨hzero, trivial⟩
      · exact ⟨hzero, trivial⟩
  · have h3 := h2 (2 ^ float64info.expbits - 1) (by decide)
    have c1 : ¬ ((0 : BitVec 64) &&& 1 <<< (62 - float64info.mantbits) ≠ 0) := by decide
    have c4 : (0 : BitVec 64) >>> (63 - float64info.mantbits) = 0 := by decide
    have c5 : (0 : BitVec 64) &&& 1 <<< float64info.mantbits = 0 := by decide
    have c6 : ¬ ((0 : BitVec 64) = 2 <<< float64info.mantbits) := by decide
    by_cases g : e + 63 + double.bias ≥ 2 ^ double.w - 1
    · rw [if_pos g]
      have g' : e' - float64info.bias ≥ 2 ^ float64info.expbits - 1 := h3.2 g
      simp only [if_neg c1, c4, if_neg c6, if_pos g']
      cases neg
      · exact ⟨hinf, trivial⟩
      · exact ⟨hinf, trivial⟩
    · rw [if_neg g]
      have g' : ¬ (e' - float64info.bias ≥ 2 ^ float64info.expbits - 1) := fun h => g (h3.1 h)
      simp only [if_neg c1, c4, if_neg c6, if_neg g', if_pos c5]
      cases neg
      · exact ⟨hzero, trivial⟩
      · exact ⟨hzero, trivial⟩

/-- The number half way between 1 and the next number of binary16 is taken up, to an odd code. -/
example : ((⟨0x8010000000000000, -63, false⟩ : ExtFloat).floatBits float16info) = (0x3C01, false) ∧ 0x3C01 % 2 = 1 := by decide +kernel

/-- A number that is rounded up into the next binade, one that is subnormal, and one that overflows. -/
example : (⟨0xFFF0000000000000, -63, true⟩ : ExtFloat).floatBits float16info = (0xC000, false) ∧
    (⟨3, -24, false⟩ : ExtFloat).floatBits float16info = (3, false) ∧
    (⟨65520, 0, true⟩ : ExtFloat).floatBits float16info = (0xFC00, true) ∧
    (⟨65519, 0, true⟩ : ExtFloat).floatBits float16info = (0xFBFF, false) := by decide +kernel

/-- The hypotheses of `C87_even_iff` and both sides of it are met: 3·2^-24 is a number of binary16. -/
example : InfoFor half float16info ∧ (⟨3, -24, false⟩ : ExtFloat).mant ≠ 0 ∧ -2 ^ 59 ≤ (⟨3, -24, false⟩ : ExtFloat).exp :=
  ⟨Or.inl ⟨rfl, rfl⟩, by decide, by norm_num⟩

/-- Both cases of `C87_zero`. -/
example : (⟨0, -48, true⟩ : ExtFloat).floatBits float16info = (0x8000, false) ∧
    (⟨0, -47, true⟩ : ExtFloat).floatBits float16info = (0xFC00, true) := by decide +kernel

/-- C49, exactly when a reported success is right, for a nonzero mantissa with at least 61 bits if digits were dropped: the float is
the one nearest to the decimal `x * 10^e10` unless the extended float is at least half the smallest subnormal and the decimal is not
above that. Missing, because false: mantissa 0 (`C49_false_zero`), and shorter truncated mantissas (`C49_false_trunc`). -/
theorem C49_iff_partial {F : Format} {flt : FloatInfo} (hF : InfoFor F flt) {m : BitVec 64} (hm : m ≠ 0) {e10 : ℤ} {neg trunc : Bool}
    {f : ExtFloat} (hok : assignDecimal m e10 neg trunc flt = .ok (f, true)) {x : ℚ} (hx : Leading m trunc x)
    (htrunc : trunc = true → 2 ^ 60 ≤ m.toNat) :
    F.RoundsTo neg (x * (10 : ℚ) ^ e10) (f.floatBits flt).1.toNat ↔
      ¬ ((2 : ℚ) ^ (F.qmin - 1) ≤ f.mant.toNat * (2 : ℚ) ^ f.exp ∧ x * (10 : ℚ) ^ e10 ≤ (2 : ℚ) ^ (F.qmin - 1)) := by
  obtain ⟨hG, hfl⟩ := hF.go
  have hb := hG.bounds
  have hA : DecArg m trunc x := by
    unfold Leading at hx
    unfold DecArg
    cases trunc
    · exact hx
    · exact ⟨htrunc rfl, hx⟩
  have hr : ¬ (e10 < -348 ∨ 348 ≤ e10) := by
    intro hr
    rw [assign_out m neg trunc flt hr] at hok
    injection hok with hok
    injection hok with _ hok
    exact absurd hok (by decide)
  obtain ⟨g, E, hg, e1, e2, hgm, hgn, hge, hgx⟩ := assign_bounds m hm neg trunc flt (show -348 ≤ e10 by omega) (show e10 < 348 by omega)
  have hok' := hok
  rw [hg] at hok
  injection hok with hok
  injection hok with hfg htest
  subst hfg
  have hx0 : 0 ≤ x * (10 : ℚ) ^ e10 := by
    have hmn : (0 : ℚ) ≤ m.toNat := Nat.cast_nonneg _
    have : 0 ≤ x := by
      unfold DecArg at hA
      split at hA
      · linarith [hA.2.1]
      · rw [hA]; exact hmn
    positivity
  constructor
  · rintro hR ⟨h1, h2⟩
    have hm0 : g.mant ≠ 0 := by
      intro h0
      rw [h0] at hgm
      exact absurd hgm (by decide)
    have hexp : -2 ^ 59 ≤ g.exp := by
      by_contra hc
      have hlt : (g.mant.toNat : ℚ) < (2 : ℚ) ^ (64 : ℤ) := by
        have := g.mant.isLt
        rw [show (64 : ℤ) = ((64 : ℕ) : ℤ) from rfl, zpow_natCast]
        exact_mod_cast this
      have hq : -2 ^ 20 ≤ F.qmin := by rcases hG with rfl | rfl | rfl <;> decide
      have h3 : (2 : ℚ) ^ g.exp ≤ (2 : ℚ) ^ (F.qmin - 1 - 64) := zpow_le_zpow_right₀ (by norm_num) (by omega)
      have h4 : (g.mant.toNat : ℚ) * (2 : ℚ) ^ g.exp < (2 : ℚ) ^ (64 : ℤ) * (2 : ℚ) ^ (F.qmin - 1 - 64) :=
        lt_of_lt_of_le (mul_lt_mul_of_pos_right hlt (by positivity)) (mul_le_mul_of_nonneg_left h3 (by positivity))
      rw [← zpow_add₀ (by norm_num), show (64 : ℤ) + (F.qmin - 1 - 64) = F.qmin - 1 by ring] at h4
      linarith
    have hi0 : 1 < F.infCode := by
      rcases hG with rfl | rfl | rfl <;> decide
    have z0 : F.magc 0 = 0 := by unfold Format.magc; simp
    have z1 : F.magc 1 = (2 : ℚ) ^ F.qmin := by
      have := F.magc_eq (k := 0) (N := 1) Nat.one_le_two_pow (Or.inl rfl)
      simpa using this
    have hU : (2 : ℚ) ^ F.qmin = 2 * (2 : ℚ) ^ (F.qmin - 1) := by
      rw [zpow_sub_one₀ (by norm_num)]
      field_simp
    have hz : F.RoundsTo neg (x * (10 : ℚ) ^ e10) (F.signPart neg + 0) := by
      rw [roundsTo_iff F (by omega) (by omega) neg (by omega) hx0]
      refine ⟨fun h => absurd rfl h, ?_, fun h => by omega⟩
      rw [z0, zero_add, z1, hU]
      linarith
    have hd := Float128ppc.RoundsTo.unique (by omega) hR hz
    rw [F.decode_code neg (by omega), z0] at hd
    have hW := (C87_floatBits hF g hm0 hexp).1
    unfold Format.RoundsAway at hW
    split at hW
    · rw [hd] at hW
      cases hW
    · obtain ⟨r, w1, w2, w3⟩ := hW
      rw [hd, ← hgn] at w1
      injection w1 with _ w1
      subst w1
      have d1 := F.decode_code g.neg hi0
      have a := w2 _ _ _ d1
      have b := w3 _ _ _ d1
      rw [signed_sub, signed_sub, z1] at a b
      generalize (g.mant.toNat : ℚ) * (2 : ℚ) ^ g.exp = v at *
      have hpos : (0 : ℚ) < (2 : ℚ) ^ (F.qmin - 1) := by positivity
      rw [sub_zero, abs_of_nonneg (by linarith)] at a b
      have hv : v ≤ (2 : ℚ) ^ (F.qmin - 1) := by
        by_contra hc
        rcases le_or_gt v ((2 : ℚ) ^ F.qmin) with h | h
        · rw [abs_of_nonpos (by linarith)] at a
          linarith
        · rw [abs_of_pos (by linarith)] at a
          linarith
      have hve : v = (2 : ℚ) ^ (F.qmin - 1) := le_antisymm hv h1
      have := b (by cases g.neg <;> simp [signed] <;> positivity) (by
        rw [abs_of_nonpos (by linarith)]
        linarith)
      linarith [F.magc_nonneg 1]
  · intro hno
    subst hfl
    obtain ⟨q1, q2⟩ := hgx x hA
    obtain ⟨t1, t2⟩ := assign_test hG hgm e2 htest
    rw [← hgn]
    refine (floatBits_near hG hgm hge e1 e2 hx0 q1 q2 t1 (fun h => ?_) t2).1
    by_contra hc
    refine hno ⟨?_, not_lt.1 hc⟩
    have hcs := cut_step hG g.exp
    have hstep : stepOf F g.exp = 0 := by
      unfold cutBits at h
      unfold stepOf
      omega
    rw [hstep, h] at hcs
    have he : g.exp = F.qmin - 1 - 63 := by push_cast at hcs; omega
    rw [he, zpow_sub₀ (by norm_num) (F.qmin - 1), show (63 : ℤ) = ((63 : ℕ) : ℤ) from rfl, zpow_natCast, mul_div_assoc', le_div_iff₀ (by positivity), mul_comm]
    have hM : (2 : ℚ) ^ 63 ≤ g.mant.toNat := by exact_mod_cast hgm
    exact mul_le_mul_of_nonneg_right hM (by positivity)

/-- The hypotheses of `C49_iff_partial` are met and both cases occur: 1e0, and half the smallest subnormal of binary16. -/
example : assignDecimal 1 0 false false float16info = .ok (⟨0x8000000000000000, -63, false⟩, true) ∧ Leading 1 false 1 ∧
    assignDecimal 298023223876953125 (-25) false false float16info = .ok (⟨0x8000000000000000, -88, false⟩, true) := by
  refine ⟨by decide +kernel, by simp [Leading], by decide +kernel⟩

end GoFloat.Strconv
