import Verif.Proofs.AssignDecimal
import Verif.Props.ExtFloat
/-
Properties of AssignDecimal and floatBits of internal/strconv/extfloat.go (C49 and C54 of properties.jsonl).
-/
namespace GoFloat.Strconv
open Spec

/-- C49 in full: when `AssignDecimal` reports success, `floatBits` gives the float nearest to the decimal. This is false. -/
def C49_full : Prop :=
  ∀ (F : Format) (flt : FloatInfo), InfoFor F flt → ∀ (m : BitVec 64) (e10 : ℤ) (neg trunc : Bool) (f : ExtFloat),
    assignDecimal m e10 neg trunc flt = .ok (f, true) → ∀ x, Leading m trunc x →
      F.RoundsTo neg (x * (10 : ℚ) ^ e10) (f.floatBits flt).1.toNat

theorem not_roundsTo {F : Format} {q : ℚ} {n n' : ℕ} (h1 : n < F.infCode) (h2 : n' < F.infCode) (hq : q < F.overflowAt)
    (hr : |q - F.magc n'| < |q - F.magc n|) : ¬ F.RoundsTo false q n := by
  intro h
  have d1 := F.decode_code false h1
  have d2 := F.decode_code false h2
  rw [show F.signPart false = 0 from rfl, Nat.zero_add] at d1 d2
  unfold Format.RoundsTo at h
  rw [if_neg (not_le.2 hq)] at h
  obtain ⟨r, hr1, hr2, -⟩ := h
  rw [d1] at hr1
  injection hr1 with _ hr1
  have := hr2 n' false _ d2
  rw [← hr1] at this
  simp only [signed, Bool.false_eq_true, if_false] at this
  linarith

/-- C49 fails for a tie: 298023223876953125e-25 is exactly half the smallest subnormal of binary16, which rounds to 0, but
`AssignDecimal` reports success and the result is the smallest subnormal. -/
theorem C49_false_tie : assignDecimal 298023223876953125 (-25) false false float16info = .ok (⟨0x8000000000000000, -88, false⟩, true) ∧
    ((⟨0x8000000000000000, -88, false⟩ : ExtFloat).floatBits float16info).1 = 1 ∧
    ¬ half.RoundsTo false (298023223876953125 * (10 : ℚ) ^ (-25 : ℤ)) 1 := by
  refine ⟨by decide +kernel, by decide +kernel, ?_⟩
  intro h
  have d1 : half.decode 1 = .num false (half.magc 1) := half.decode_code false (n := 1) (by decide)
  have d2 : half.decode 0 = .num false (half.magc 0) := half.decode_code false (n := 0) (by decide)
  have m1 : half.magc 1 = (2 : ℚ) ^ (-24 : ℤ) := by norm_num [Format.magc, half, Format.qmin, Format.bias]
  have m0 : half.magc 0 = 0 := by norm_num [Format.magc, half]
  unfold Format.RoundsTo at h
  rw [if_neg (by norm_num [Format.overflowAt, half, Format.bias])] at h
  obtain ⟨r, hr1, -, hr2⟩ := h
  rw [d1] at hr1
  injection hr1 with _ hr1
  have := hr2 0 false _ d2
  rw [← hr1, m1, m0] at this
  simp only [signed, Bool.false_eq_true, if_false] at this
  exact absurd (this (by norm_num) (by norm_num [abs_of_pos, abs_of_neg])) (by norm_num)

/-- C49 fails near a tie: 7006492321624085354e-64 is below half the smallest subnormal of binary32. -/
theorem C49_false_near : assignDecimal 7006492321624085354 (-64) false false float32info = .ok (⟨0x8000000000000000, -213, false⟩, true) ∧
    ((⟨0x8000000000000000, -213, false⟩ : ExtFloat).floatBits float32info).1 = 1 ∧
    ¬ single.RoundsTo false (7006492321624085354 * (10 : ℚ) ^ (-64 : ℤ)) 1 := by
  refine ⟨by decide +kernel, by decide +kernel, ?_⟩
  apply not_roundsTo (n := 1) (n' := 0) (by decide) (by decide)
  · norm_num [Format.overflowAt, single, Format.bias]
  · have m1 : single.magc 1 = (2 : ℚ) ^ (-149 : ℤ) := by norm_num [Format.magc, single, Format.qmin, Format.bias]
    have m0 : single.magc 0 = 0 := by norm_num [Format.magc, single]
    rw [m1, m0, sub_zero, abs_of_pos (by positivity), abs_of_neg (by norm_num)]
    norm_num

/-- C49 fails for mantissa 0: `AssignDecimal` reports success and the result is an infinity. -/
theorem C49_false_zero : assignDecimal 0 300 false false float64info = .ok (⟨0, 997, false⟩, true) ∧
    ((⟨0, 997, false⟩ : ExtFloat).floatBits float64info).1 = 0x7FF0000000000000 ∧
    ¬ double.RoundsTo false (0 * (10 : ℚ) ^ (300 : ℤ)) 0x7FF0000000000000 := by
  refine ⟨by decide +kernel, by decide +kernel, ?_⟩
  intro h
  unfold Format.RoundsTo at h
  rw [if_neg (by rw [zero_mul]; norm_num [Format.overflowAt, double, Format.bias])] at h
  obtain ⟨r, hr1, -⟩ := h
  rw [show double.decode 0x7FF0000000000000 = .inf false by norm_num [Format.decode, double]] at hr1
  exact absurd hr1 (by simp)

set_option exponentiation.threshold 2000 in
/-- C49 fails for truncated mantissas with few bits: 1119788744826558070.9e124 is cut to the integer before the point. -/
theorem C49_false_trunc : assignDecimal 1119788744826558070 124 false true float64info = .ok (⟨16939393904510137332, 408, false⟩, true) ∧
    ((⟨16939393904510137332, 408, false⟩ : ExtFloat).floatBits float64info).1 = 0x5d6d629a203c97ce ∧
    ¬ double.RoundsTo false ((1119788744826558070 + 9 / 10) * (10 : ℚ) ^ (124 : ℤ)) 0x5d6d629a203c97ce := by
  refine ⟨by decide +kernel, by decide +kernel, ?_⟩
  apply not_roundsTo (n := 0x5d6d629a203c97ce) (n' := 0x5d6d629a203c97cf) (by decide +kernel) (by decide +kernel)
  · rw [show double.overflowAt = (2 : ℚ) ^ (1023 : ℕ) * (2 - 1 / 2 ^ 53) by norm_num [Format.overflowAt, double, Format.bias]]
    norm_num
  · have m1 : double.magc 0x5d6d629a203c97ce = ((2 ^ 52 + 0xd629a203c97ce : ℕ) : ℚ) * 2 ^ (419 : ℕ) := by
      norm_num [Format.magc, double, Format.qmin, Format.bias]
    have m0 : double.magc 0x5d6d629a203c97cf = ((2 ^ 52 + 0xd629a203c97cf : ℕ) : ℚ) * 2 ^ (419 : ℕ) := by
      norm_num [Format.magc, double, Format.qmin, Format.bias]
    rw [m1, m0, abs_of_neg (by norm_num), abs_of_pos (by norm_num)]
    norm_num

theorem C49_false : ¬ C49_full := by
  intro h
  obtain ⟨h1, h2, h3⟩ := C49_false_tie
  refine h3 ?_
  have := h half float16info (Or.inl ⟨rfl, rfl⟩) _ _ _ _ _ h1 298023223876953125 (by unfold Leading; rw [if_neg (by decide)]; rw [show (298023223876953125 : BitVec 64).toNat = 298023223876953125 from rfl]; norm_num)
  rw [h2] at this
  exact this

/-- C49, the part that holds: for a nonzero mantissa, with at least 61 bits if digits were dropped, `AssignDecimal` reports success
only if `floatBits` then gives the float nearest to the decimal (ties to even, infinity from the overflow threshold on), and
`floatBits` reports overflow exactly from that threshold on. Missing, because false: mantissa 0 (`C49_false_zero`), shorter
truncated mantissas (`C49_false_trunc`), and decimals at most half the smallest subnormal and within a factor 1 - 2^-57 of it
(`C49_false_tie`, `C49_false_near`). -/
theorem C49_correct_partial {F : Format} {flt : FloatInfo} (hF : InfoFor F flt) {m : BitVec 64} (hm : m ≠ 0) {e10 : ℤ} {neg trunc : Bool}
    {f : ExtFloat} (hok : assignDecimal m e10 neg trunc flt = .ok (f, true)) {x : ℚ} (hx : Leading m trunc x)
    (htrunc : trunc = true → 2 ^ 60 ≤ m.toNat)
    (hhalf : ¬ ((1 - 1 / 2 ^ 57) * (2 : ℚ) ^ (F.qmin - 1) < x * (10 : ℚ) ^ e10 ∧ x * (10 : ℚ) ^ e10 ≤ (2 : ℚ) ^ (F.qmin - 1))) :
    F.RoundsTo neg (x * (10 : ℚ) ^ e10) (f.floatBits flt).1.toNat ∧
      ((f.floatBits flt).2 = true ↔ F.overflowAt ≤ x * (10 : ℚ) ^ e10) := by
  obtain ⟨hG, rfl⟩ := hF.go
  refine assign_correct hG hm ?_ hok (fun _ h => ?_)
  · unfold Leading at hx
    unfold DecArg
    cases trunc
    · exact hx
    · exact ⟨htrunc rfl, hx⟩
  · by_contra hc
    exact hhalf ⟨h, not_lt.1 hc⟩

/-- The mantissas and exponents with a decimal near half the smallest subnormal of binary64. -/
theorem double_half {m : BitVec 64} {e10 : ℤ} {trunc : Bool} {x : ℚ} (hm : m ≠ 0) (hr : -348 ≤ e10) (hx : Leading m trunc x)
    (htrunc : trunc = true → 2 ^ 60 ≤ m.toNat) (h1 : (1 - 1 / 2 ^ 57) * (2 : ℚ) ^ (double.qmin - 1) < x * (10 : ℚ) ^ e10)
    (h2 : x * (10 : ℚ) ^ e10 ≤ (2 : ℚ) ^ (double.qmin - 1)) :
    (e10 = -341 ∧ ∃ d < 3, m.toNat = 247032822920623270 + d) ∨ (e10 = -342 ∧ ∃ d < 18, m.toNat = 2470328229206232703 + d) := by
  have hq : double.qmin - 1 = -((1075 : ℕ) : ℤ) := by decide
  have hm0 : 0 < m.toNat := by
    rcases Nat.eq_zero_or_pos m.toNat with h0 | h0
    · exact absurd (BitVec.eq_of_toNat_eq (by simpa using h0)) hm
    · exact h0
  have hlt := m.isLt
  have hxm : (m.toNat : ℚ) ≤ x ∧ (x < m.toNat + 1) ∧ (trunc = false → x = m.toNat) := by
    unfold Leading at hx
    cases trunc
    · rw [if_neg (by decide)] at hx
      refine ⟨hx.ge, by rw [hx]; linarith, fun _ => hx⟩
    · rw [if_pos rfl] at hx
      exact ⟨hx.1, hx.2, fun h => absurd h (by decide)⟩
  obtain ⟨x1, x2, x3⟩ := hxm
  have hx1 : (1 : ℚ) ≤ x := le_trans (by exact_mod_cast hm0) x1
  rw [hq, zpow_neg, zpow_natCast] at h1 h2
  have hj : ∃ j : ℕ, e10 = -(j : ℤ) ∧ 324 ≤ j ∧ j ≤ 348 := by
    by_contra hc
    have : -323 ≤ e10 := by
      by_contra h
      exact hc ⟨(-e10).toNat, by omega, by omega, by omega⟩
    have h3 : (10 : ℚ) ^ (-323 : ℤ) ≤ (10 : ℚ) ^ e10 := zpow_le_zpow_right₀ (by norm_num) this
    have h4 : ((2 : ℚ) ^ 1075)⁻¹ < (10 : ℚ) ^ (-323 : ℤ) := by
      rw [show (-323 : ℤ) = -((323 : ℕ) : ℤ) from rfl, zpow_neg, zpow_natCast, inv_lt_inv₀ (by positivity) (by positivity)]
      have : 10 ^ 323 < 2 ^ 1075 := by decide +kernel
      exact_mod_cast this
    have h5 : (0 : ℚ) < (10 : ℚ) ^ e10 := by positivity
    have h6 := le_mul_of_one_le_left h5.le hx1
    exact absurd (le_trans h3 (le_trans h6 h2)) (not_le.2 h4)
  obtain ⟨j, rfl, hj1, hj2⟩ := hj
  rw [zpow_neg, zpow_natCast, ← div_eq_mul_inv] at h1 h2
  have hP : (0 : ℚ) < 2 ^ 1075 := by positivity
  have hT : (0 : ℚ) < 10 ^ j := by positivity
  rw [div_le_iff₀ hT, inv_mul_eq_div, le_div_iff₀ hP] at h2
  rw [← div_eq_mul_inv, div_lt_div_iff₀ hP hT] at h1
  have h1' : (2 ^ 57 - 1) * (10 : ℚ) ^ j < x * 2 ^ 1075 * 2 ^ 57 := by
    have := mul_lt_mul_of_pos_right h1 (show (0 : ℚ) < 2 ^ 57 by positivity)
    refine lt_of_eq_of_lt ?_ this
    ring
  have k1 : m.toNat * 2 ^ 1075 ≤ 10 ^ j := by
    have : (m.toNat : ℚ) * 2 ^ 1075 ≤ 10 ^ j := le_trans (mul_le_mul_of_nonneg_right x1 hP.le) h2
    exact_mod_cast this
  have k2 : (2 ^ 57 - 1) * 10 ^ j < (m.toNat + 1) * 2 ^ 1132 := by
    have : ((2 ^ 57 - 1) * (10 : ℚ) ^ j) < (m.toNat + 1) * 2 ^ 1132 := by
      refine lt_trans h1' ?_
      rw [mul_assoc, ← pow_add]
      exact mul_lt_mul_of_pos_right x2 (by positivity)
    have h57 : ((2 ^ 57 - 1 : ℕ) : ℚ) = 2 ^ 57 - 1 := by norm_num
    rw [← h57] at this
    exact_mod_cast this
  have k3 : trunc = false → (2 ^ 57 - 1) * 10 ^ j < m.toNat * 2 ^ 1132 := by
    intro ht
    have : ((2 ^ 57 - 1) * (10 : ℚ) ^ j) < m.toNat * 2 ^ 1132 := by
      refine lt_of_lt_of_eq h1' ?_
      rw [mul_assoc, ← pow_add, x3 ht]
    have h57 : ((2 ^ 57 - 1 : ℕ) : ℚ) = 2 ^ 57 - 1 := by norm_num
    rw [← h57] at this
    exact_mod_cast this
  clear h1 h2 h1' x1 x2 x3 hx1 hT hP hx hm hq hr
  generalize m.toNat = n at *
  have n1 : n ≤ 10 ^ j / 2 ^ 1075 := (Nat.le_div_iff_mul_le (by positivity)).2 k1
  have mono : ∀ a b : ℕ, a ≤ b → 10 ^ a ≤ 10 ^ b := fun a b h => Nat.pow_le_pow_right (by norm_num) h
  rcases Nat.lt_or_ge j 341 with h341 | h341
  · exfalso
    cases trunc with
    | true =>
      have c1 : 10 ^ j / 2 ^ 1075 ≤ 10 ^ 341 / 2 ^ 1075 := Nat.div_le_div_right (mono _ _ h341.le)
      have c2 : 10 ^ 341 / 2 ^ 1075 < 2 ^ 60 := by decide +kernel
      exact absurd (htrunc rfl) (not_le.2 (lt_of_le_of_lt (le_trans n1 c1) c2))
    | false =>
      have c1 : ∀ i < 17, 10 ^ (324 + i) / 2 ^ 1075 * 2 ^ 1132 ≤ (2 ^ 57 - 1) * 10 ^ (324 + i) := by decide +kernel
      have c2 := c1 (j - 324) (by omega)
      rw [show 324 + (j - 324) = j by omega] at c2
      exact absurd (k3 rfl) (not_lt.2 (le_trans (Nat.mul_le_mul_right _ n1) c2))
  · rcases Nat.lt_or_ge 342 j with h342 | h342
    · exfalso
      have c1 : 2 ^ 64 * 2 ^ 1132 ≤ (2 ^ 57 - 1) * 10 ^ 343 := by decide +kernel
      have c2 : (2 ^ 57 - 1) * 10 ^ 343 ≤ (2 ^ 57 - 1) * 10 ^ j := Nat.mul_le_mul_left _ (mono _ _ h342)
      have c3 : (n + 1) * 2 ^ 1132 ≤ 2 ^ 64 * 2 ^ 1132 := Nat.mul_le_mul_right _ hlt
      exact absurd k2 (not_lt.2 (le_trans c3 (le_trans c1 c2)))
    · have low : ∀ c : ℕ, c * 2 ^ 1132 ≤ (2 ^ 57 - 1) * 10 ^ j → c ≤ n := by
        intro c hc
        by_contra h
        have : (n + 1) * 2 ^ 1132 ≤ c * 2 ^ 1132 := Nat.mul_le_mul_right _ (by omega)
        exact absurd k2 (not_lt.2 (le_trans this hc))
      rcases (by omega : j = 341 ∨ j = 342) with rfl | rfl
      · left
        have c1 : 10 ^ 341 / 2 ^ 1075 = 247032822920623272 := by decide +kernel
        have c2 := low 247032822920623270 (by decide +kernel)
        rw [c1] at n1
        exact ⟨rfl, n - 247032822920623270, by omega, by omega⟩
      · right
        have c1 : 10 ^ 342 / 2 ^ 1075 = 2470328229206232720 := by decide +kernel
        have c2 := low 2470328229206232703 (by decide +kernel)
        rw [c1] at n1
        exact ⟨rfl, n - 2470328229206232703, by omega, by omega⟩

theorem double_half_exp : (∀ d < 3, ∀ neg trunc : Bool, ∀ f b, assignDecimal (BitVec.ofNat 64 (247032822920623270 + d)) (-341) neg trunc float64info = .ok (f, b) → f.exp = -1139) ∧
    (∀ d < 18, ∀ neg trunc : Bool, ∀ f b, assignDecimal (BitVec.ofNat 64 (2470328229206232703 + d)) (-342) neg trunc float64info = .ok (f, b) → f.exp = -1139) := by
  have h1 : ∀ d < 3, ∀ neg trunc : Bool, (assignDecimal (BitVec.ofNat 64 (247032822920623270 + d)) (-341) neg trunc float64info).map (·.1.exp) = .ok (-1139) := by
    decide +kernel
  have h2 : ∀ d < 18, ∀ neg trunc : Bool, (assignDecimal (BitVec.ofNat 64 (2470328229206232703 + d)) (-342) neg trunc float64info).map (·.1.exp) = .ok (-1139) := by
    decide +kernel
  refine ⟨fun d hd neg trunc f b h => ?_, fun d hd neg trunc f b h => ?_⟩
  · have := h1 d hd neg trunc
    rw [h] at this
    injection this
  · have := h2 d hd neg trunc
    rw [h] at this
    injection this

/-- C49 for binary64: for a nonzero mantissa, with at least 61 bits if digits were dropped, `AssignDecimal` reports success only if
`floatBits` then gives the nearest float64, and `floatBits` reports overflow exactly from the overflow threshold on. Missing,
because false: mantissa 0 and shorter truncated mantissas. -/
theorem C49_double_partial {m : BitVec 64} (hm : m ≠ 0) {e10 : ℤ} {neg trunc : Bool}
    {f : ExtFloat} (hok : assignDecimal m e10 neg trunc float64info = .ok (f, true)) {x : ℚ} (hx : Leading m trunc x)
    (htrunc : trunc = true → 2 ^ 60 ≤ m.toNat) :
    double.RoundsTo neg (x * (10 : ℚ) ^ e10) (f.floatBits float64info).1.toNat ∧
      ((f.floatBits float64info).2 = true ↔ double.overflowAt ≤ x * (10 : ℚ) ^ e10) := by
  obtain ⟨hG, hi⟩ := InfoFor.go (F := double) (flt := float64info) (Or.inr (Or.inr ⟨rfl, rfl⟩))
  have hr : -348 ≤ e10 := by
    by_contra hc
    rw [assign_out m neg trunc _ (Or.inl (by omega))] at hok
    injection hok with hok
    injection hok with _ hok
    exact absurd hok (by decide)
  have hok' := hok
  rw [hi] at hok ⊢
  refine assign_correct hG hm ?_ hok (fun h64 h => ?_)
  · unfold Leading at hx
    unfold DecArg
    cases trunc
    · exact hx
    · exact ⟨htrunc rfl, hx⟩
  · by_contra hc
    have hexp : f.exp = -1139 := by
      rcases double_half hm hr hx htrunc h (not_lt.1 hc) with ⟨rfl, d, hd, hmd⟩ | ⟨rfl, d, hd, hmd⟩
      · refine double_half_exp.1 d hd neg trunc f true ?_
        rw [← hmd, BitVec.ofNat_toNat, BitVec.setWidth_eq]
        exact hok'
      · refine double_half_exp.2 d hd neg trunc f true ?_
        rw [← hmd, BitVec.ofNat_toNat, BitVec.setWidth_eq]
        exact hok'
    rw [hexp] at h64
    exact absurd h64 (by decide)

/-- C49: `AssignDecimal` always returns, and never reads outside its tables. -/
theorem C49_total (m : BitVec 64) (e10 : ℤ) (neg trunc : Bool) (flt : FloatInfo) :
    ∃ f b, assignDecimal m e10 neg trunc flt = .ok (f, b) := assign_total m e10 neg trunc flt

-- the hypotheses hold for 1.5 = 15e-1 and for the truncation of 1234567890123456789.5e-30
example : assignDecimal 15 (-1) false false float64info = .ok (⟨0xC000000000000000, -63, false⟩, true) ∧ Leading 15 false 15 ∧
    ((⟨0xC000000000000000, -63, false⟩ : ExtFloat).floatBits float64info).1 = 0x3FF8000000000000 := by
  refine ⟨by decide +kernel, ?_, by decide +kernel⟩
  unfold Leading
  rw [if_neg (by decide)]
  rfl

example : (assignDecimal 1234567890123456789 (-30) true true float64info).map (·.2) = .ok true ∧
    Leading 1234567890123456789 true (1234567890123456789 + 1 / 2) ∧ 2 ^ 60 ≤ (1234567890123456789 : BitVec 64).toNat := by
  refine ⟨by decide +kernel, ?_, by decide⟩
  unfold Leading
  rw [if_pos rfl, show (1234567890123456789 : BitVec 64).toNat = 1234567890123456789 from rfl]
  norm_num

-- near half the smallest subnormal of binary16, outside the excluded interval
example : ¬ ((1 - 1 / 2 ^ 57) * (2 : ℚ) ^ (half.qmin - 1) < 3 * (10 : ℚ) ^ (-8 : ℤ) ∧ 3 * (10 : ℚ) ^ (-8 : ℤ) ≤ (2 : ℚ) ^ (half.qmin - 1)) ∧
    (assignDecimal 3 (-8) false false float16info).map (fun p => (p.2, (p.1.floatBits float16info).1)) = .ok (true, 1) := by
  refine ⟨?_, by decide +kernel⟩
  intro h
  have := h.2
  norm_num [half, Format.qmin, Format.bias] at this

/-- C54: within the range of its tables, for a nonzero mantissa, with at least 61 bits if digits were dropped, and a decimal of at
least half the smallest subnormal, `AssignDecimal` gives up only if the decimal is within a factor 1 ± 2^-55 of the middle
between two neighbouring numbers of the format (if its exponents had no upper bound). -/
theorem C54_gives_up_only_near {F : Format} {flt : FloatInfo} (hF : InfoFor F flt) {m : BitVec 64} (hm : m ≠ 0) {e10 : ℤ} {neg trunc : Bool}
    (h1 : -348 ≤ e10) (h2 : e10 < 348) {f : ExtFloat} (hok : assignDecimal m e10 neg trunc flt = .ok (f, false)) {x : ℚ}
    (hx : Leading m trunc x) (htrunc : trunc = true → 2 ^ 60 ≤ m.toNat) (hlo : (2 : ℚ) ^ (F.qmin - 1) ≤ x * (10 : ℚ) ^ e10) :
    ∃ (N : ℕ) (z : ℤ), F.qmin ≤ z ∧ N < 2 ^ (F.t + 1) ∧ (2 ^ F.t ≤ N ∨ z = F.qmin) ∧
      |x * (10 : ℚ) ^ e10 - (N + 1 / 2) * (2 : ℚ) ^ z| ≤ x * (10 : ℚ) ^ e10 / 2 ^ 55 := by
  obtain ⟨hG, rfl⟩ := hF.go
  refine assign_gives_up hG hm h1 h2 ?_ hok hlo
  unfold Leading at hx
  unfold DecArg
  cases trunc
  · exact hx
  · exact ⟨htrunc rfl, hx⟩

/-- C54: outside the range of its tables `AssignDecimal` gives up. -/
theorem C54_out_of_range (m : BitVec 64) {e10 : ℤ} (neg trunc : Bool) (flt : FloatInfo) (h : e10 < -348 ∨ 348 ≤ e10) :
    assignDecimal m e10 neg trunc flt = .ok (⟨m, 0, neg⟩, false) := assign_out m neg trunc flt h

-- it does give up: 9007199254740993 = 2^53 + 1 is such a middle
example : (assignDecimal 9007199254740993 0 false false float64info).map (·.2) = .ok false ∧
    Leading 9007199254740993 false 9007199254740993 ∧ (2 : ℚ) ^ (double.qmin - 1) ≤ 9007199254740993 * (10 : ℚ) ^ (0 : ℤ) := by
  refine ⟨by decide +kernel, ?_, ?_⟩
  · unfold Leading
    rw [if_neg (by decide)]
    rfl
  · refine le_trans (zpow_le_zpow_right₀ (by norm_num) (show double.qmin - 1 ≤ 0 by decide)) ?_
    norm_num

end GoFloat.Strconv
