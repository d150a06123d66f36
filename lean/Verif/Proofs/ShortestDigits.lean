import Verif.Proofs.Bounds
import Verif.Proofs.Widen
import Verif.Spec.Shortest
/-
From the statements about units of `10^dp` to decimals with a number of digits.
-/
namespace GoFloat.Strconv
open Spec

variable {F : Format} {n k N : ℕ}

theorem InInterval.convex {a b c : ℚ} (ha : InInterval F n a) (hc : InInterval F n c) (h1 : a ≤ b) (h2 : b ≤ c) : InInterval F n b := by
  obtain ⟨a1, -⟩ := ha
  obtain ⟨-, c1, c2⟩ := hc
  refine ⟨fun hn => ?_, by linarith, fun ho => by linarith [c2 ho]⟩
  obtain ⟨a2, a3⟩ := a1 hn
  exact ⟨by linarith, fun ho => by linarith [a3 ho]⟩

/-- In the rounding interval of the float with code `n`, or at one of its ends. -/
def Closed (F : Format) (n : ℕ) (y : ℚ) : Prop := F.magc (n - 1) + F.magc n ≤ 2 * y ∧ 2 * y ≤ F.magc n + F.magc (n + 1)

theorem InInterval.closed (hn : n ≠ 0) {y : ℚ} (h : InInterval F n y) : Closed F n y := ⟨(h.1 hn).1, h.2.1⟩

/-- A decimal below the leading power of ten lies outside, except possibly for a one-digit result. -/
theorem FloatShortest.below {ds : List ℕ} {dp : ℤ} (h : FloatShortest F n ds dp) {y : ℚ} (hy : Closed F n y)
    (hlt : y < (10 : ℚ) ^ (dp - 1)) : ds.length = 1 := by
  obtain ⟨p1, -⟩ := decValue_pos h.normal h.ne_nil
  have hin : Closed F n ((10 : ℚ) ^ (dp - 1)) := ⟨by linarith [hy.1], by linarith [h.lt]⟩
  have hl : 1 ≤ ds.length := List.length_pos_iff.2 h.ne_nil
  by_contra hc
  refine h.coarser ((10 : ℤ) ^ (ds.length - 2)) ?_
  have : (((10 : ℤ) ^ (ds.length - 2) : ℤ) : ℚ) * (10 : ℚ) ^ (dp - ds.length + 1) = (10 : ℚ) ^ (dp - 1) := by
    push_cast
    rw [← zpow_natCast, ← zpow_add₀ (by norm_num)]
    congr 1
    omega
  rwa [this]

/-- No decimal with fewer digits lies in the interval or is one of its ends. -/
theorem FloatShortest.minimal_closed {ds : List ℕ} {dp : ℤ} (h : FloatShortest F n ds dp) (hn : n ≠ 0) {m : ℕ} {y : ℚ} (hy : FitsDigits m y)
    (hin : Closed F n y) : ds.length ≤ m := by
  by_contra hc
  obtain ⟨a, e, ha, rfl⟩ := hy
  have hl : 1 ≤ ds.length := List.length_pos_iff.2 h.ne_nil
  by_cases he : dp - ds.length + 1 ≤ e
  · refine h.coarser (a * 10 ^ (e - (dp - ds.length + 1)).toNat) ?_
    have : (((a : ℤ) * 10 ^ (e - (dp - ds.length + 1)).toNat : ℤ) : ℚ) * (10 : ℚ) ^ (dp - ds.length + 1) = a * (10 : ℚ) ^ e := by
      push_cast
      rw [mul_assoc, ← zpow_natCast, ← zpow_add₀ (by norm_num)]
      congr 2
      omega
    rwa [this]
  · have hlt : (a : ℚ) * (10 : ℚ) ^ e < (10 : ℚ) ^ (dp - 1) := by
      have h1 : (a : ℚ) < 10 ^ m := by exact_mod_cast ha
      calc (a : ℚ) * (10 : ℚ) ^ e < 10 ^ m * (10 : ℚ) ^ e := by
            apply mul_lt_mul_of_pos_right h1; positivity
        _ = (10 : ℚ) ^ ((m : ℤ) + e) := by rw [zpow_add₀ (by norm_num), zpow_natCast]
        _ ≤ _ := zpow_le_zpow_right₀ (by norm_num) (by omega)
    have l1 := h.below hin hlt
    have hm0 : m = 0 := by omega
    subst hm0
    have ha0 : a = 0 := by omega
    subst ha0
    have := hin.1
    rw [Nat.cast_zero, zero_mul, mul_zero] at this
    have h0 := F.magc_nonneg (n - 1)
    have h2 := F.magc_strictMono (show n - 1 < n by omega)
    linarith

theorem FloatShortest.minimal {ds : List ℕ} {dp : ℤ} (h : FloatShortest F n ds dp) (hn : n ≠ 0) {m : ℕ} {y : ℚ} (hy : FitsDigits m y)
    (hin : InInterval F n y) : ds.length ≤ m := h.minimal_closed hn hy (InInterval.closed hn hin)

set_option exponentiation.threshold 2000 in
/-- The only powers of ten near a very small subnormal number. -/
theorem small_power {F : Format} (hF : GoFormat F) {N : ℕ} {j : ℤ} (h1 : ((2 * N - 1 : ℤ) : ℚ) * (2 : ℚ) ^ F.qmin ≤ 2 * (10 : ℚ) ^ j)
    (h2 : 2 * (10 : ℚ) ^ j ≤ ((2 * N + 1 : ℤ) : ℚ) * (2 : ℚ) ^ F.qmin) (hN1 : 1 ≤ N) (hN : N ≤ 11) (hlt : (N : ℚ) * (2 : ℚ) ^ F.qmin < (10 : ℚ) ^ j) :
    F = single ∧ j = -44 ∧ N = 7 ∨ F = double ∧ j = -323 ∧ N = 2 := by
  have hN1q : (1 : ℚ) ≤ N := by exact_mod_cast hN1
  have hNq : (N : ℚ) ≤ 11 := by exact_mod_cast hN
  push_cast at h1 h2
  have key : ∀ (q a : ℤ), F.qmin = q → 23 * (2 : ℚ) ^ q < 2 * (10 : ℚ) ^ (a + 1) → 2 * (10 : ℚ) ^ (a - 2) < (2 : ℚ) ^ q → j = a ∨ j = a - 1 := by
    intro q a hq ha hb
    rw [hq] at h1 h2
    have hp : (0 : ℚ) < (2 : ℚ) ^ q := by positivity
    have e1 : j < a + 1 := by
      by_contra hc
      have : (10 : ℚ) ^ (a + 1) ≤ (10 : ℚ) ^ j := zpow_le_zpow_right₀ (by norm_num) (by omega)
      nlinarith
    have e2 : a - 2 < j := by
      by_contra hc
      have : (10 : ℚ) ^ j ≤ (10 : ℚ) ^ (a - 2) := zpow_le_zpow_right₀ (by norm_num) (by omega)
      nlinarith
    omega
  rcases hF with rfl | rfl | rfl
  · exfalso
    have hq : half.qmin = -24 := by decide
    have hj := key (-24) (-7) hq (by norm_num) (by norm_num)
    rw [hq] at h1 h2 hlt
    rcases hj with rfl | rfl
    all_goals
      clear key
      interval_cases N <;> (revert h1 h2 hlt; norm_num)
  · have hq : single.qmin = -149 := by decide
    have hj := key (-149) (-44) hq (by norm_num) (by norm_num)
    rw [hq] at h1 h2 hlt
    left
    refine ⟨rfl, ?_⟩
    rcases hj with rfl | rfl
    all_goals
      clear key
      interval_cases N <;> first | (exfalso; revert h1 h2 hlt; norm_num; done) | norm_num
  · have hq : double.qmin = -1074 := by decide
    have hj := key (-1074) (-322) hq (by norm_num) (by norm_num)
    rw [hq] at h1 h2 hlt
    right
    refine ⟨rfl, ?_⟩
    rcases hj with rfl | rfl
    all_goals
      clear key
      interval_cases N <;> first | (exfalso; revert h1 h2 hlt; norm_num; done) | norm_num

set_option exponentiation.threshold 2000 in
theorem FloatShortest.closer {ds : List ℕ} {dp : ℤ} (hF : GoFormat F) (hs : Split F n k N) (hN0 : N ≠ 0) (h : FloatShortest F n ds dp) {y : ℚ}
    (hy : FitsDigits ds.length y) (hin : InInterval F n y) (hne : y ≠ decValue ds dp) : |decValue ds dp - F.magc n| < |y - F.magc n| := by
  obtain ⟨a, e, ha, rfl⟩ := hy
  have hn : n ≠ 0 := fun hc => hN0 (hs.zero_iff.2 hc)
  by_cases he : dp - ds.length ≤ e
  · have : (((a : ℤ) * 10 ^ (e - (dp - ds.length)).toNat : ℤ) : ℚ) * (10 : ℚ) ^ (dp - ds.length) = a * (10 : ℚ) ^ e := by
      push_cast
      rw [mul_assoc, ← zpow_natCast, ← zpow_add₀ (by norm_num)]
      congr 2
      omega
    have h2 := h.unique (a * 10 ^ (e - (dp - ds.length)).toNat) (by rw [this]; exact hin) (by rw [this]; exact hne)
    rwa [this] at h2
  · have hlt : (a : ℚ) * (10 : ℚ) ^ e < (10 : ℚ) ^ (dp - 1) := by
      have h1 : (a : ℚ) < 10 ^ ds.length := by exact_mod_cast ha
      calc (a : ℚ) * (10 : ℚ) ^ e < 10 ^ ds.length * (10 : ℚ) ^ e := by
            apply mul_lt_mul_of_pos_right h1; positivity
        _ = (10 : ℚ) ^ ((ds.length : ℤ) + e) := by rw [zpow_add₀ (by norm_num), zpow_natCast]
        _ ≤ _ := zpow_le_zpow_right₀ (by norm_num) (by omega)
    have l1 := h.below (InInterval.closed hn hin) hlt
    have hP := InInterval.convex hin h.mem hlt.le (decValue_pos h.normal h.ne_nil).1
    have hone : (((1 : ℤ)) : ℚ) * (10 : ℚ) ^ (dp - ds.length) = (10 : ℚ) ^ (dp - 1) := by
      rw [l1]; push_cast; rw [one_mul]
    have hc : |decValue ds dp - F.magc n| ≤ |(10 : ℚ) ^ (dp - 1) - F.magc n| := by
      by_cases heq : (10 : ℚ) ^ (dp - 1) = decValue ds dp
      · rw [heq]
      · have := (h.unique 1 (by rw [hone]; exact hP) (by rw [hone]; exact heq)).le
        rwa [hone] at this
    refine hc.trans_lt ?_
    rw [l1] at ha he
    have hy9 : (a : ℚ) * (10 : ℚ) ^ e ≤ 9 / 10 * (10 : ℚ) ^ (dp - 1) := by
      have h1 : (a : ℚ) ≤ 9 := by exact_mod_cast (show a ≤ 9 by omega)
      calc (a : ℚ) * (10 : ℚ) ^ e ≤ 9 * (10 : ℚ) ^ (dp - 1 - 1) := by
            apply mul_le_mul h1 (zpow_le_zpow_right₀ (by norm_num) (by push_cast at he; omega)) (by positivity) (by norm_num)
        _ = _ := by rw [zpow_sub_one₀ (by norm_num)]; ring
    generalize (a : ℚ) * (10 : ℚ) ^ e = y at *
    rcases le_or_gt ((10 : ℚ) ^ (dp - 1)) (F.magc n) with hv | hv
    · rw [abs_of_nonpos (by linarith), abs_of_nonpos (by linarith)]
      linarith
    · have hup := hs.upper_mid
      have hlo := hs.lower_mid (by omega)
      have hval := hs.value
      have p1 := hP.2.1
      have p2 := (hin.1 hn).1
      rw [hup] at p1
      have hT := two_zpow_pred (F.qmin + k)
      have hTp : (0 : ℚ) < (2 : ℚ) ^ (F.qmin + (k : ℤ)) := by positivity
      have p2' : ((N : ℚ) - 1 / 2) * (2 : ℚ) ^ (F.qmin + (k : ℤ)) ≤ y := by
        have : (2 * N - 1) * (2 : ℚ) ^ (F.qmin + (k : ℤ)) ≤ F.magc (n - 1) + F.magc n := by
          rw [hlo]
          split
          · rw [hT]; linarith
          · rw [hT, two_zpow_pred (F.qmin + k - 1), show F.qmin + (k : ℤ) - 1 - 1 = F.qmin + k - 2 by ring]
            rw [hT, two_zpow_pred (F.qmin + k - 1), show F.qmin + (k : ℤ) - 1 - 1 = F.qmin + k - 2 by ring] at hTp
            nlinarith
        linarith
      have hNle : N ≤ 9 := by
        by_contra hc
        have h10 : (10 : ℚ) ≤ N := by exact_mod_cast (show 10 ≤ N by omega)
        nlinarith
      have hk : k = 0 := by
        rcases hs.norm with h | h
        · exact h
        · have := Nat.pow_le_pow_right (n := 2) (by norm_num) hF.bounds.1
          omega
      subst hk
      rw [Nat.cast_zero, add_zero] at *
      rw [hval] at hv ⊢
      have p1' : 2 * (10 : ℚ) ^ (dp - 1) ≤ (2 * N + 1) * (2 : ℚ) ^ F.qmin := by rw [hT]; linarith
      have hsp := small_power hF (j := dp - 1) (N := N) (by push_cast; linarith) (by push_cast; exact p1') (by omega) (by omega) hv
      rcases hsp with ⟨rfl, hj, rfl⟩ | ⟨rfl, hj, rfl⟩
      · exfalso
        rw [hj] at hy9
        rw [show single.qmin = -149 by decide] at p2'
        norm_num at p2' hy9
        linarith
      · rw [hj] at hy9 hv ⊢
        rw [show double.qmin = -1074 by decide] at hv p2' hTp ⊢
        clear hT hup hlo hval p1 p1' p2 hc hlt hone hP hin h
        have hb : (19 / 10 : ℚ) * (10 : ℚ) ^ (-323 : ℤ) < 4 * (2 : ℚ) ^ (-1074 : ℤ) := by norm_num
        generalize (10 : ℚ) ^ (-323 : ℤ) = P at *
        generalize (2 : ℚ) ^ (-1074 : ℤ) = T at *
        push_cast at hv ⊢
        rw [abs_of_nonneg (by linarith), abs_of_nonpos (by linarith)]
        linarith

theorem FloatShortest.spec (hF : GoFormat F) (hs : Split F n k N) (hN0 : N ≠ 0) {ds : List ℕ} {dp : ℤ} (h : FloatShortest F n ds dp) (neg : Bool) :
    F.ShortestDecimal neg (F.signPart neg + n) (F.magc n) ds dp := by
  have hn : n ≠ 0 := fun hc => hN0 (hs.zero_iff.2 hc)
  have hb := hF.bounds
  have hq : ∀ y, (∃ m, FitsDigits m y) → (F.RoundsTo neg y (F.signPart neg + n) ↔ InInterval F n y) := by
    rintro y ⟨m, a, e, -, rfl⟩
    exact roundsTo_iff F (by omega) (by omega) neg hs.fin (by positivity)
  refine ⟨h.normal, (hq _ ⟨_, dv ds, dp - ds.length, dv_lt h.normal.digit, decValue_eq _ _⟩).2 h.mem, ?_, ?_⟩
  · intro m y hy hr
    exact h.minimal hn hy ((hq _ ⟨_, hy⟩).1 hr)
  · intro y hy hr
    by_cases heq : y = decValue ds dp
    · rw [heq]
    · exact (h.closer hF hs hN0 hy ((hq _ ⟨_, hy⟩).1 hr) heq).le

/-- The number of the format next to `n` is the only one to look at. -/
theorem FloatShortest.strictly (hF : GoFormat F) (hs : Split F n k N) {q : ℚ} (hq : 0 ≤ q) (h1 : F.magc (n - 1) + F.magc n < 2 * q)
    (h2 : 2 * q < F.magc n + F.magc (n + 1)) : F.StrictlyNearest (F.magc n) q := by
  have hb := hF.bounds
  have hmono := F.magc_strictMono
  constructor
  · have := magc_infCode_add F (by omega)
    have e1 : F.magc n ≤ F.magc (F.infCode - 1) := hmono.monotone (by have := hs.fin; omega)
    have e2 : F.magc (n + 1) ≤ F.magc F.infCode := hmono.monotone (by have := hs.fin; omega)
    linarith
  · intro c s r hd hne
    obtain ⟨m, -, hm, -⟩ := F.code_of_decode hd
    have hm0 := F.magc_nonneg m
    have hpos : |q - F.magc n| < |q - F.magc m| ∨ m = n := by
      rcases lt_trichotomy m n with hlt | heq | hgt
      · left
        have e : F.magc m ≤ F.magc (n - 1) := hmono.monotone (by omega)
        have e' := hmono hlt
        rw [abs_lt]
        rw [abs_of_nonneg (by linarith)]
        constructor <;> linarith
      · exact Or.inr heq
      · left
        have e : F.magc (n + 1) ≤ F.magc m := hmono.monotone (by omega)
        have e' := F.magc_lt_succ n
        rw [abs_lt]
        rw [abs_of_nonpos (by linarith)]
        constructor <;> linarith
    have hle : |q - F.magc m| ≤ |q - signed s r| := by
      rw [hm]
      cases s
      · exact le_refl _
      · show _ ≤ |q - -F.magc m|
        rw [abs_le]
        rw [abs_of_nonneg (show 0 ≤ q - -F.magc m by linarith)]
        constructor <;> linarith
    rcases hpos with h | h
    · exact h.trans_le hle
    · subst h
      cases s
      · exact absurd hm (by simpa [signed] using hne)
      · have hv0 : F.magc m ≠ 0 := by
          intro hc
          apply hne
          rw [hm, hc]; simp [signed]
        have hvp : 0 < F.magc m := lt_of_le_of_ne hm0 (Ne.symm hv0)
        have hmn : F.magc (m - 1) ≥ 0 := F.magc_nonneg _
        rw [hm]
        show _ < |q - -F.magc m|
        rw [abs_of_nonneg (show 0 ≤ q - -F.magc m by linarith), abs_lt]
        constructor <;> linarith

theorem onGrid_iff {F : Format} (hw : 2 ≤ F.w) (r : ℚ) : F.OnGrid r ↔ ∃ i, i ≤ F.infCode ∧ r = F.magc i := by
  constructor
  · rintro (⟨c, hc⟩ | rfl)
    · obtain ⟨i, hi, rfl, -⟩ := F.code_of_decode hc
      exact ⟨i, hi.le, rfl⟩
    · exact ⟨F.infCode, le_refl _, (magc_infCode F (by omega)).symm⟩
  · rintro ⟨i, hi, rfl⟩
    rcases hi.lt_or_eq with hlt | rfl
    · exact Or.inl ⟨_, F.decode_code false hlt⟩
    · exact Or.inr (magc_infCode F (by omega))

/-- The numbers with consecutive codes are adjacent. -/
theorem adjacent_magc {F : Format} (hw : 2 ≤ F.w) {i : ℕ} (hi : i < F.infCode) : F.Adjacent (F.magc i) (F.magc (i + 1)) := by
  refine ⟨(onGrid_iff hw _).2 ⟨i, hi.le, rfl⟩, (onGrid_iff hw _).2 ⟨i + 1, hi, rfl⟩, F.magc_lt_succ i, fun r hr => ?_⟩
  obtain ⟨j, -, rfl⟩ := (onGrid_iff hw _).1 hr
  rcases Nat.lt_or_ge i j with h | h
  · exact Or.inr (F.magc_strictMono.monotone h)
  · exact Or.inl (F.magc_strictMono.monotone h)

/-- Mantissa and exponent of a float determine its encoding. -/
theorem parts_split (hF : GoFormat F) {mant : ℕ} {exp : ℤ} {v : ℚ} (h : F.Parts mant exp v) :
    ∃ k n, Split F n k mant ∧ exp = (k : ℤ) + 1 - F.bias ∧ v = F.magc n := by
  have hb := hF.bounds
  obtain ⟨k, hk⟩ : ∃ k : ℕ, (k : ℤ) = exp - 1 + F.bias := ⟨(exp - 1 + F.bias).toNat, by have := h.ge; omega⟩
  have hnorm : k = 0 ∨ 2 ^ F.t ≤ mant := by
    rcases h.norm with h | h
    · exact Or.inr h
    · left; omega
  have hval : v = F.magc (k * 2 ^ F.t + mant) := by
    rw [F.magc_eq h.lt.le hnorm, h.value]
    congr 2
    unfold Format.qmin
    omega
  refine ⟨k, k * 2 ^ F.t + mant, ⟨rfl, h.lt, hnorm, ?_⟩, by omega, hval⟩
  have hle := h.le
  have hk2 : k + 3 ≤ 2 ^ F.w := by
    have : F.bias = 2 ^ (F.w - 1) - 1 := rfl
    have h2 : 2 ^ F.w = 2 * 2 ^ (F.w - 1) := by rw [← pow_succ']; congr 1; omega
    have : ((2 ^ (F.w - 1) : ℕ) : ℤ) = 2 ^ (F.w - 1) := by push_cast; rfl
    omega
  unfold Format.infCode
  obtain ⟨j, hj⟩ : ∃ j, 2 ^ F.w = j + 3 := ⟨2 ^ F.w - 3, by omega⟩
  have hlt := h.lt
  have : k * 2 ^ F.t ≤ j * 2 ^ F.t := Nat.mul_le_mul_right _ (by omega)
  rw [pow_succ] at hlt
  rw [hj, show j + 3 - 1 = j + 2 from rfl, add_mul]
  omega

end GoFloat.Strconv
