import Verif.Proofs.Sample
import Verif.Props.Float
/-
Properties of float.go: how the answers of IsExact16, IsExact32 and IsExact64 are related.
-/
namespace GoFloat
open Spec Strconv

variable {W : ℕ} {x : BigFloat} {s : Bool} {m : ℚ}

/-- A binary fraction and a decimal that agree to 101 digits are equal when their denominators are small. -/
theorem near_equal {N D K E : ℕ} {k e : ℤ} {q B : ℚ} (hm : m = N * (2 : ℚ) ^ k) (hq : q = D * (10 : ℚ) ^ e) (hk : -(K : ℤ) ≤ k) (he : -(E : ℤ) ≤ e)
    (hB : m ≤ B) (hlim : B * (10 ^ E * 2 ^ K) < 2 * 10 ^ 100) (h : |q - m| * (2 * 10 ^ 100) ≤ m) : m = q := by
  obtain ⟨k', rfl⟩ : ∃ k' : ℕ, k = k' - K := ⟨(k + K).toNat, by omega⟩
  obtain ⟨e', rfl⟩ : ∃ e' : ℕ, e = e' - E := ⟨(e + E).toNat, by omega⟩
  have hP : (0 : ℚ) < 10 ^ E * 2 ^ K := by positivity
  have hzq : (((N * 2 ^ k' * 10 ^ E - D * 10 ^ e' * 2 ^ K : ℤ)) : ℚ) = (m - q) * (10 ^ E * 2 ^ K) := by
    rw [hm, hq, zpow_sub₀ (by norm_num), zpow_sub₀ (by norm_num)]
    push_cast
    simp only [zpow_natCast]
    field_simp
  generalize (N * 2 ^ k' * 10 ^ E - D * 10 ^ e' * 2 ^ K : ℤ) = z at hzq
  generalize (10 ^ E * 2 ^ K : ℚ) = P at hzq hlim hP
  have hlt : |(z : ℚ)| < 1 := by
    rw [hzq, abs_mul, abs_of_pos hP, abs_sub_comm]
    have h1 : |q - m| * (2 * 10 ^ 100) * P ≤ m * P := by gcongr
    have h2 : m * P ≤ B * P := by gcongr
    have hT : (0 : ℚ) < 10 ^ 100 := by positivity
    generalize (10 : ℚ) ^ 100 = T at *
    by_contra hc
    push Not at hc
    nlinarith
  have hz0 : |z| < 1 := by exact_mod_cast hlt
  rw [Int.abs_lt_one_iff] at hz0
  rw [hz0, Int.cast_zero] at hzq
  rcases mul_eq_zero.1 hzq.symm with h9 | h9
  · linarith
  · exact absurd h9 hP.ne'

theorem exponent_ge {N : ℕ} {k : ℤ} {b : ℕ} {a : ℤ} (hm : m = N * (2 : ℚ) ^ k) (hN : N < 2 ^ b) (h : (2 : ℚ) ^ a ≤ m) : a - b ≤ k := by
  by_contra hc
  push Not at hc
  have h4 : (N : ℚ) < 2 ^ b := by exact_mod_cast hN
  have h5 : (2 : ℚ) ^ k ≤ (2 : ℚ) ^ (a - b) := zpow_le_zpow_right₀ (by norm_num) hc.le
  have h6 : m < 2 ^ b * (2 : ℚ) ^ (a - b) := by
    rw [hm]
    calc (N : ℚ) * (2 : ℚ) ^ k < 2 ^ b * (2 : ℚ) ^ k := by gcongr
      _ ≤ _ := by gcongr
  rw [← zpow_natCast, ← zpow_add₀ (by norm_num), show (b : ℤ) + (a - b) = a by ring] at h6
  linarith

theorem exponent10_ge {D : ℕ} {e : ℤ} {b : ℕ} {a : ℤ} {q : ℚ} (hq : q = D * (10 : ℚ) ^ e) (hD : D < 10 ^ b) (h : (10 : ℚ) ^ a ≤ q) : a - b ≤ e := by
  by_contra hc
  push Not at hc
  have h4 : (D : ℚ) < 10 ^ b := by exact_mod_cast hD
  have h5 : (10 : ℚ) ^ e ≤ (10 : ℚ) ^ (a - b) := zpow_le_zpow_right₀ (by norm_num) hc.le
  have h6 : q < 10 ^ b * (10 : ℚ) ^ (a - b) := by
    rw [hq]
    calc (D : ℚ) * (10 : ℚ) ^ e < 10 ^ b * (10 : ℚ) ^ e := by gcongr
      _ ≤ _ := by gcongr
  rw [← zpow_natCast, ← zpow_add₀ (by norm_num), show (b : ℤ) + (a - b) = a by ring] at h6
  linarith

theorem decode_dyadic_min {F : Format} {c : ℕ} (hc : F.decode c = .num s m) : ∃ (N : ℕ) (q : ℤ), m = N * (2 : ℚ) ^ q ∧ N < 2 ^ (F.t + 1) ∧ F.qmin ≤ q := by
  obtain ⟨n, hn, rfl, -⟩ := F.code_of_decode hc
  obtain ⟨k, N, hs⟩ := exists_split F hn
  exact ⟨N, _, hs.value, hs.lt, by omega⟩

theorem single_pos {c : ℕ} (hc : single.decode c = .num s m) (h0 : m ≠ 0) : (2 : ℚ) ^ (-149 : ℤ) ≤ m ∧ m < 2 ^ 128 := by
  obtain ⟨n, hn, rfl, -⟩ := single.code_of_decode hc
  constructor
  · have h1 : single.magc 1 = (2 : ℚ) ^ (-149 : ℤ) := by norm_num [single, Format.magc, Format.qmin, Format.bias]
    rw [← h1]
    apply single.magc_strictMono.monotone
    rcases Nat.eq_zero_or_pos n with rfl | h
    · exact absurd (by norm_num [single, Format.magc, Format.qmin, Format.bias]) h0
    · exact h
  · have h1 : single.magc single.infCode = (2 : ℚ) ^ 128 := by norm_num [single, Format.magc, Format.qmin, Format.bias, Format.infCode]
    rw [← h1]
    exact single.magc_strictMono hn

/-- A float32 and a decimal of at most 9 digits that agree to 101 digits are equal. -/
theorem short_equal32 {c D : ℕ} {e : ℤ} (hc : single.decode c = .num s m) (hD : D < 10 ^ 9) {q : ℚ} (hq : q = D * (10 : ℚ) ^ e) (h : Rounded101 m q) : m = q := by
  unfold Rounded101 at h
  split at h
  · rename_i h0
    rw [h0, h]
  · rename_i h0
    obtain ⟨l1, l2⟩ := single_pos hc h0
    have hr := rounded_near h
    rw [show 101 - 1 = 100 from rfl] at hr
    have hmq : m / 2 ≤ q := by
      have h3 := abs_nonneg (q - m)
      have h4 : |q - m| * 4 ≤ m := by norm_num at hr; linarith
      have h5 := (abs_le.1 (le_refl |q - m|)).1
      linarith
    obtain ⟨N, k, hm, hN, hk'⟩ := decode_dyadic_min hc
    rw [show single.t + 1 = 24 from rfl] at hN
    rw [show single.qmin = -149 from by decide] at hk'
    by_cases h1 : 1 ≤ m
    · have hk := exponent_ge (a := 0) hm hN (by simpa using h1)
      have he := exponent10_ge (a := -1) hq hD (by norm_num; linarith)
      exact near_equal (K := 24) (E := 10) hm hq (by push_cast at *; omega) (by push_cast at *; omega) l2.le (by norm_num) hr
    · have he := exponent10_ge (a := -46) hq hD (by
        refine le_trans ?_ hmq
        refine le_trans ?_ (div_le_div_of_nonneg_right l1 (by norm_num))
        norm_num)
      exact near_equal (K := 149) (E := 55) hm hq (by push_cast at *; omega) (by push_cast at *; omega) (le_of_not_ge h1) (by norm_num) hr

/-- C65: a number that IsExact32 accepts has at most nine significant decimal digits. -/
theorem C65_digits32 (hW : W = 32 ∨ W = 64) (hx : x.WF) (h : isExact32 W x = .ok true) :
    ∃ s m, x.datum = .num s m ∧ FitsDigits 9 m ∧ ∃ f : F32, single.decode f.toNat = .num s m := by
  rcases datum_cases x with ⟨s, m, hd⟩ | ⟨s, hd⟩
  · obtain ⟨b, h1, h2⟩ := C35_decides32 hW hx hd
    rw [h] at h1
    injection h1 with h1
    obtain ⟨val, hv, t, q, k1, k2, k3⟩ := h2.1 h1.symm
    obtain ⟨a1, -⟩ := short_digits hW (F := single) (Or.inr (Or.inl ⟨rfl, rfl⟩)) (j := 9) (by decide) (by norm_num) k1 k2
    obtain ⟨D, e, hD, hq⟩ := id a1
    rw [← short_equal32 hv hD hq k3] at a1
    exact ⟨s, m, hd, a1, val, hv⟩
  · rw [(C36_infinite hW hd).2.1] at h
    cases h

example := C65_digits32 (W := 64) (.inr rfl) Sample.x_wf (by decide +kernel)

/-- C65: a number that IsExact32 accepts is accepted by IsExact64. -/
theorem C65_32_64 (hW : W = 32 ∨ W = 64) (hx : x.WF) (h : isExact32 W x = .ok true) : isExact64 W x = .ok true := by
  obtain ⟨s, m, hd, ⟨D, e, hD, hm⟩, f, hf⟩ := C65_digits32 hW hx h
  exact (C35_digits_partial hW hx hd).2.2 ⟨D, e, hD.trans (by norm_num), hm⟩ ⟨_, f32to64_num hf⟩

example := C65_32_64 (W := 64) (.inr rfl) Sample.x_wf (by decide +kernel)

/-- A binary fraction with few decimal digits is a small integer times a power of two. -/
theorem few_digits_dyadic {N D f : ℕ} {k : ℤ} (h : (N : ℚ) * (2 : ℚ) ^ k = D * (10 : ℚ) ^ (-(f : ℤ))) : 5 ^ f ∣ D := by
  obtain ⟨a, b, hab⟩ : ∃ a b : ℕ, k = a - b := ⟨k.toNat, (-k).toNat, by omega⟩
  have h1 : N * 2 ^ a * 10 ^ f = D * 2 ^ b := by
    rw [hab, zpow_sub₀ (by norm_num), zpow_neg] at h
    simp only [zpow_natCast] at h
    field_simp at h
    have : ((N * 2 ^ a * 10 ^ f : ℕ) : ℚ) = ((D * 2 ^ b : ℕ) : ℚ) := by
      push_cast
      linarith
    exact_mod_cast this
  have h2 : 5 ^ f ∣ D * 2 ^ b := by
    rw [← h1, show (10 : ℕ) = 5 * 2 from rfl, mul_pow]
    exact ⟨N * 2 ^ a * 2 ^ f, by ring⟩
  exact (Nat.Coprime.pow _ _ (by decide : Nat.Coprime 5 2)).dvd_of_dvd_mul_right h2

/-- C65: a number that IsExact16 accepts is accepted by IsExact32. -/
theorem C65_16_32 (hW : W = 32 ∨ W = 64) (hx : x.WF) (h : isExact16 W x = .ok true) : isExact32 W x = .ok true := by
  obtain ⟨s, m, hd, ⟨D, e, hD, hm⟩, c, r, hc, hr⟩ := C34_partial hW hx h
  have hdy : ∃ (N : ℕ) (k : ℤ), m = N * (2 : ℚ) ^ k := by
    obtain ⟨b, h1, h2⟩ := C35_decides16 hW hx hd
    rw [h] at h1
    injection h1 with h1
    obtain ⟨val, hv, -⟩ := h2.1 h1.symm
    obtain ⟨N, k, h3, -⟩ := decode_dyadic hv
    exact ⟨N, k, h3⟩
  have hlt : m < 65520 := by
    by_contra hc'
    push Not at hc'
    unfold Format.RoundsTo at hr
    rw [if_pos] at hr
    · rw [hc] at hr
      cases hr
    · refine le_trans (le_of_eq ?_) hc'
      norm_num [half, Format.overflowAt, Format.bias]
  refine (C35_digits_partial hW hx hd).2.1 ⟨D, e, hD.trans (by norm_num), hm⟩ ?_
  rcases le_or_gt 0 e with he | he
  · obtain ⟨e', rfl⟩ := Int.eq_ofNat_of_zero_le he
    have h1 : m = ((D * 10 ^ e' : ℕ) : ℚ) := by
      rw [hm]
      push_cast
      rfl
    rw [h1]
    rw [h1] at hlt
    have h2 : D * 10 ^ e' < 65520 := by exact_mod_cast hlt
    exact integer_rep (F := single) (Or.inr (Or.inl ⟨rfl, rfl⟩)) (h2.le.trans (by decide)) s
  · obtain ⟨f, rfl⟩ : ∃ f : ℕ, e = -(f : ℤ) := ⟨(-e).toNat, by omega⟩
    obtain ⟨N, k, h1⟩ := hdy
    obtain ⟨M, hM⟩ := few_digits_dyadic (h1.symm.trans hm)
    have h2 : m = M * (2 : ℚ) ^ (-(f : ℤ)) := by
      rw [hm, hM, show (10 : ℚ) = 5 * 2 by norm_num, mul_zpow]
      push_cast
      rw [zpow_neg, zpow_natCast]
      field_simp
    rcases Nat.eq_zero_or_pos M with rfl | hM0
    · rw [h2]
      simpa using integer_rep (F := single) (i := 0) (Or.inr (Or.inl ⟨rfl, rfl⟩)) (Nat.zero_le _) s
    · have hf : f < 8 := by
        by_contra hf
        push Not at hf
        have h3 : 5 ^ 8 ≤ 5 ^ f := Nat.pow_le_pow_right (by norm_num) hf
        have h4 : 5 ^ f * 1 ≤ 5 ^ f * M := Nat.mul_le_mul_left _ hM0
        norm_num at h3 hD
        omega
      have hMD : M ≤ D := by
        rw [hM]
        exact Nat.le_mul_of_pos_left _ (by positivity)
      rw [h2]
      refine signed_rep (F := single) (by decide) (hMD.trans_lt (hD.trans (by decide))) ?_ ?_ s
      · rw [show single.qmin = -149 from by decide]
        omega
      · rw [← h2]
        refine hlt.trans ?_
        norm_num [single, Format.bias]

example := C65_16_32 (W := 64) (.inr rfl) Sample.x_wf (by decide +kernel)

/-- C65: a number that IsExact16 accepts is accepted by IsExact64. -/
theorem C65_16_64 (hW : W = 32 ∨ W = 64) (hx : x.WF) (h : isExact16 W x = .ok true) : isExact64 W x = .ok true :=
  C65_32_64 hW hx (C65_16_32 hW hx h)

-- concrete cases: the three sets differ
example : isExact16 64 big8210 = .ok true := by decide +kernel
example : isExact16 64 ⟨53, .toNearestEven, .exact, .finite, false, 131073, 18⟩ = .ok false := by decide +kernel
example : isExact32 64 ⟨53, .toNearestEven, .exact, .finite, false, 131073, 18⟩ = .ok true := by decide +kernel
example : isExact32 64 ⟨53, .toNearestEven, .exact, .finite, false, 16777217, 25⟩ = .ok false := by decide +kernel
example : isExact64 64 ⟨53, .toNearestEven, .exact, .finite, false, 16777217, 25⟩ = .ok true := by decide +kernel

end GoFloat
