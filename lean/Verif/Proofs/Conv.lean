import Verif.Proofs.Nearest
import Verif.Proofs.Text
import Verif.Model.Math
/-
Lemmas about the remaining `big.Float` operations: decoding floats, precision changes, exponents,
truncation, integrality.
-/
namespace GoFloat
open Spec

/-- What a format says about a code, for codes given by sign and magnitude. -/
theorem decode_cases (F : Format) (c : ℕ) :
    (∃ s, F.decode c = .nan s) ∨
    (F.decode c = .inf (decide (c / 2 ^ (F.t + F.w) % 2 = 1)) ∧ c % 2 ^ (F.t + F.w) = F.infCode) ∨
    (F.decode c = .num (decide (c / 2 ^ (F.t + F.w) % 2 = 1)) (F.magc (c % 2 ^ (F.t + F.w))) ∧
      c % 2 ^ (F.t + F.w) < F.infCode) := by
  cases hd : F.decode c with
  | nan s => exact Or.inl ⟨s, rfl⟩
  | num s r =>
    obtain ⟨n, h1, h2, h3, h4⟩ := F.code_of_decode hd
    rw [h3, h2, h4]
    exact Or.inr (Or.inr ⟨rfl, h1⟩)
  | inf s =>
    right; left
    unfold Format.decode at hd
    simp only at hd
    split at hd
    · rename_i hE
      split at hd
      · rename_i hT
        refine ⟨hd.symm, ?_⟩
        have h1 : c % 2 ^ (F.t + F.w) / 2 ^ F.t = 2 ^ F.w - 1 := by
          rw [pow_add, Nat.mod_mul_right_div_self]; exact hE
        have h2 : c % 2 ^ (F.t + F.w) % 2 ^ F.t = 0 := by
          rw [pow_add, Nat.mod_mul_right_mod]; exact hT
        have := Nat.div_add_mod (c % 2 ^ (F.t + F.w)) (2 ^ F.t)
        rw [h1, h2] at this
        unfold Format.infCode; rw [← this]; ring
      · cases hd
    · split at hd <;> cases hd

theorem decode_nan_iff (F : Format) (c : ℕ) :
    (∃ s, F.decode c = .nan s) ↔ c / 2 ^ F.t % 2 ^ F.w = 2 ^ F.w - 1 ∧ c % 2 ^ F.t ≠ 0 := by
  unfold Format.decode
  simp only
  by_cases hE : c / 2 ^ F.t % 2 ^ F.w = 2 ^ F.w - 1
  · rw [if_pos hE]
    by_cases hT : c % 2 ^ F.t = 0
    · simp [hT]
    · simp [hT, hE]
  · rw [if_neg hE]
    split <;> simp [hE]

theorem qmin_ge (F : Format) (hw30 : F.w ≤ 30) (ht : F.t ≤ 1000) : -1000000000 ≤ F.qmin := by
  unfold Format.qmin Format.bias
  have : (2 : ℤ) ^ (F.w - 1) ≤ 2 ^ 29 := pow_le_pow_right₀ (by norm_num) (by omega)
  norm_num at this ⊢; omega

/-- `big.NewFloat` and friends: the variable holds exactly the number of the code. -/
theorem decodeIEEE_spec (F : Format) (hw1 : 1 ≤ F.w) (hw30 : F.w ≤ 30) (ht : F.t ≤ 1000) (c : ℕ)
    (hnan : ¬ ∃ s, F.decode c = .nan s) :
    (decodeIEEE F.t F.w c).datum = F.decode c ∧ (decodeIEEE F.t F.w c).WF ∧
    (decodeIEEE F.t F.w c).prec = F.t + 1 ∧ (decodeIEEE F.t F.w c).mode = .toNearestEven ∧
    (decodeIEEE F.t F.w c).acc = .exact := by
  have hPt := Nat.two_pow_pos F.t
  have hPw := two_pow_w F hw1
  rw [decode_nan_iff] at hnan
  have hbias : ((2 : ℤ) ^ (F.w - 1) - 1) = F.bias := rfl
  have hb0 : 0 ≤ F.bias := by
    have : (1 : ℤ) ≤ 2 ^ (F.w - 1) := one_le_pow₀ (by norm_num)
    rw [← hbias]; linarith
  have hbM := bias_lt_maxExp F hw30
  unfold decodeIEEE Format.decode
  simp only [hbias]
  set E := c / 2 ^ F.t % 2 ^ F.w with hE
  set T := c % 2 ^ F.t with hT
  have hEl : E < 2 ^ F.w := Nat.mod_lt _ (Nat.two_pow_pos _)
  have hTl : T < 2 ^ F.t := Nat.mod_lt _ hPt
  have hs : (c / 2 ^ (F.t + F.w) % 2 == 1) = decide (c / 2 ^ (F.t + F.w) % 2 = 1) := rfl
  rw [hs]
  set s := decide (c / 2 ^ (F.t + F.w) % 2 = 1) with hsd
  by_cases h1 : E = 2 ^ F.w - 1
  · have hT0 : T = 0 := by by_contra h; exact hnan ⟨h1, h⟩
    rw [if_pos h1, if_pos h1, if_pos hT0]
    refine ⟨rfl, ⟨by simp [BigFloat.MaxPrec]; omega, ?_, ?_, ?_, ?_, ?_⟩, rfl, rfl, rfl⟩ <;>
      (intro h; simp at h)
  · rw [if_neg h1, if_neg h1]
    by_cases h2 : E = 0 ∧ T = 0
    · rw [if_pos h2, if_pos h2.1]
      refine ⟨?_, ⟨by simp [BigFloat.MaxPrec]; omega, ?_, ?_, ?_, ?_, ?_⟩, rfl, rfl, rfl⟩
      · simp [BigFloat.datum, BigFloat.new, h2.2]
      all_goals (intro h; simp [BigFloat.new] at h)
    · rw [if_neg h2]
      have hm0 : 0 < (if E = 0 then T else 2 ^ F.t + T) := by
        split
        · omega
        · omega
      have hml : (if E = 0 then T else 2 ^ F.t + T) < 2 ^ (F.t + 1) := by
        rw [pow_succ]; split <;> omega
      set m := if E = 0 then T else 2 ^ F.t + T with hm
      have hbl := bitLen_le_of_lt hml
      have hb1 := bitLen_pos hm0
      have hq := qmin_ge F hw30 ht
      refine ⟨?_, ⟨by simp [BigFloat.MaxPrec]; omega, fun _ => hm0, fun _ => ?_, fun _ => ?_, fun _ => by simp, fun _ => ?_⟩,
        rfl, rfl, rfl⟩
      · simp only [BigFloat.datum]
        rw [BigFloat.mag_eq]
        simp only
        rw [show ((max E 1 : ℕ) : ℤ) - F.bias - F.t + (bitLen m : ℤ) - bitLen m = ((max E 1 : ℕ) : ℤ) - F.bias - F.t by ring]
        by_cases hE0 : E = 0
        · rw [if_pos hE0]
          congr 1
          rw [hm, if_pos hE0, hE0]
          simp only [Nat.zero_le, Nat.cast_one, max_eq_right]
          rw [zpow_sub₀ (by norm_num) _ (F.t : ℤ), zpow_natCast]; ring
        · rw [if_neg hE0]
          congr 1
          rw [hm, if_neg hE0, max_eq_left (by omega)]
          push_cast
          rw [zpow_sub₀ (by norm_num) _ (F.t : ℤ), zpow_natCast]; field_simp
      · simp only [BigFloat.MinExp]; unfold Format.qmin at hq
        have : (1 : ℤ) ≤ ((max E 1 : ℕ) : ℤ) := by push_cast; exact le_max_right _ _
        omega
      · simp only
        have h3 : max E 1 ≤ 2 ^ F.w := max_le hEl.le (Nat.one_le_two_pow)
        have h4 : ((max E 1 : ℕ) : ℤ) ≤ 2 * F.bias + 2 := by rw [← hPw]; exact_mod_cast h3
        omega
      · exact ⟨m, 0, by simp, hml⟩

namespace BigFloat

theorem datum_finite {x : BigFloat} (h : x.form = .finite) : x.datum = .num x.neg x.mag := by
  unfold datum; rw [h]

/-- Widening the precision changes nothing else. -/
theorem setPrec_widen {x : BigFloat} {p : ℕ} (hp : 1 ≤ p) (hle : p ≤ MaxPrec) (h : x.prec ≤ p) :
    x.setPrec p = { x with prec := p, acc := .exact } := by
  unfold setPrec
  rw [if_neg (by omega)]
  simp only [min_eq_left hle]
  rw [if_neg (by omega)]

theorem WF.widen {x : BigFloat} (hx : x.WF) {p : ℕ} (hle : p ≤ MaxPrec) (h : x.prec ≤ p) (m : RoundingMode)
    (a : Accuracy) : ({ x with prec := p, acc := a, mode := m } : BigFloat).WF := by
  refine ⟨hle, hx.mant_pos, hx.exp_ge, hx.exp_le, fun hf => ?_, fun hf => ?_⟩
  · have := hx.prec_pos hf; simp; omega
  · obtain ⟨k, j, h1, h2⟩ := hx.fits hf
    exact ⟨k, j, h1, lt_of_lt_of_le h2 (Nat.pow_le_pow_right (by norm_num) h)⟩

theorem WF.withSign {x : BigFloat} (hx : x.WF) (s : Bool) : ({ x with neg := s } : BigFloat).WF :=
  ⟨hx.prec_le, hx.mant_pos, hx.exp_ge, hx.exp_le, hx.prec_pos, hx.fits⟩

/-- `SetMantExp` of the mantissa part, any rounding mode: only the exponent changes. -/
theorem setMantExpSelf_spec {z : BigFloat} (hz : z.WF) (hf : z.form = .finite) {k : ℤ}
    (h1 : MinExp ≤ z.exp + k) (h2 : z.exp + k ≤ MaxExp) :
    ∃ m, z.setMantExpSelf k = { z with acc := .exact, mant := m, exp := z.exp + k } ∧ 0 < m ∧
      (∃ i, z.mant = m * 2 ^ i) ∧ (z.setMantExpSelf k).WF ∧ (z.setMantExpSelf k).mag = z.mag * 2 ^ k := by
  have hm := hz.mant_pos hf
  have hfit := hz.fits hf
  obtain ⟨m, hr, hm0, hi, hfit'⟩ := round_of_fits (z := { z with form := .finite, exp := z.exp + k }) rfl hm hfit
  have heq : z.setMantExpSelf k = { z with acc := .exact, mant := m, exp := z.exp + k } := by
    unfold setMantExpSelf
    rw [if_pos hf]
    unfold setExpAndRound
    rw [if_neg (by omega), if_neg (by omega), hr, ← hf]
  refine ⟨m, heq, hm0, hi, ?_, ?_⟩
  · rw [heq]
    exact ⟨hz.prec_le, fun _ => hm0, fun _ => h1, fun _ => h2, hz.prec_pos, fun _ => hfit'⟩
  · obtain ⟨i, hi⟩ := hi
    rw [heq]
    have : ({ z with acc := .exact, mant := m, exp := z.exp + k } : BigFloat).mag
        = ({ z with exp := z.exp + k } : BigFloat).mag := mag_of_mul (i := i) hm0 rfl hi
    rw [this, mag_eq, mag_eq]
    simp only
    rw [mul_assoc, ← zpow_add₀ (by norm_num)]
    congr 2; ring

/-- `⌊|x|⌋`. -/
theorem truncMag_eq (x : BigFloat) : (x.truncMag : ℤ) = ⌊x.mag⌋ := by
  unfold truncMag
  rw [mag_eq]
  simp only
  by_cases h : 0 ≤ x.exp - bitLen x.mant
  · rw [if_pos h]
    obtain ⟨d, hd⟩ := Int.eq_ofNat_of_zero_le h
    rw [hd, Int.toNat_natCast, zpow_natCast, Nat.shiftLeft_eq]
    have : (x.mant : ℚ) * 2 ^ d = ((x.mant * 2 ^ d : ℕ) : ℚ) := by push_cast; ring
    rw [this, Int.floor_natCast]
  · rw [if_neg h]
    obtain ⟨d, hd⟩ : ∃ d : ℕ, x.exp - bitLen x.mant = -(d : ℤ) := ⟨(-(x.exp - bitLen x.mant)).toNat, by omega⟩
    rw [hd, neg_neg, Int.toNat_natCast, zpow_neg, zpow_natCast, Nat.shiftRight_eq_div_pow, ← div_eq_mul_inv]
    have := Rat.floor_natCast_div_natCast x.mant (2 ^ d)
    push_cast at this ⊢
    exact this.symm

theorem ntzAux_spec : ∀ (f n : ℕ), n < 2 ^ f → 0 < n → ∃ o, n = o * 2 ^ ntzAux f n ∧ o % 2 = 1 := by
  intro f
  induction f with
  | zero => intro n h h0; simp at h; omega
  | succ f ih =>
    intro n h h0
    unfold ntzAux
    split
    · rename_i he
      obtain ⟨o, ho, ho2⟩ := ih (n / 2) (by rw [pow_succ] at h; omega) (by omega)
      refine ⟨o, ?_, ho2⟩
      rw [pow_succ, ← Nat.mul_assoc, ← ho]; omega
    · exact ⟨n, by simp, by omega⟩

theorem ntz_spec {n : ℕ} (h : 0 < n) : ∃ o, n = o * 2 ^ ntz n ∧ o % 2 = 1 := by
  unfold ntz
  rw [if_neg (by omega)]
  exact ntzAux_spec _ _ (lt_two_pow_bitLen n) h

/-- `IsInt` tells whether the value is an integer. -/
theorem isInt_iff {x : BigFloat} (hx : x.WF) (hf : x.form = .finite) : x.isInt = true ↔ ∃ n : ℕ, x.mag = n := by
  have hm := hx.mant_pos hf
  obtain ⟨o, ho, ho2⟩ := ntz_spec hm
  have ho0 : 0 < o := by omega
  have hbl : bitLen x.mant = bitLen o + ntz x.mant := by
    conv_lhs => rw [ho]
    exact bitLen_mul_two_pow ho0 _
  have hmp : x.minPrec = bitLen o := by
    unfold minPrec; rw [if_pos hf]; omega
  generalize ntz x.mant = t at ho hbl
  have hmag : x.mag = o * (2 : ℚ) ^ (x.exp - bitLen o) := by
    rw [mag_eq, hbl]
    conv_lhs => rw [ho]
    push_cast
    rw [mul_assoc, ← zpow_natCast, ← zpow_add₀ (by norm_num)]
    congr 2; ring
  have hprec : bitLen o ≤ x.prec := by
    obtain ⟨k, j, hk, hkp⟩ := hx.fits hf
    have hlt : o < 2 ^ x.prec := by
      rcases Nat.lt_or_ge (t) j with h | h
      · obtain ⟨d, hd⟩ : ∃ d, j = t + (d + 1) := ⟨j - t - 1, by omega⟩
        rw [hd, pow_add, pow_succ] at hk
        have : o * 2 ^ t = (k * 2 ^ d * 2) * 2 ^ t := by rw [← ho, hk]; ring
        have := Nat.eq_of_mul_eq_mul_right (Nat.two_pow_pos _) this
        omega
      · obtain ⟨d, hd⟩ : ∃ d, t = j + d := ⟨t - j, by omega⟩
        have : o * 2 ^ d * 2 ^ j = k * 2 ^ j := by
          rw [← hk]; conv_rhs => rw [ho, hd, pow_add]
          ring
        have := Nat.eq_of_mul_eq_mul_right (Nat.two_pow_pos _) this
        have h1 : 1 ≤ 2 ^ d := Nat.one_le_two_pow
        nlinarith
    exact bitLen_le_of_lt hlt
  have hob := bitLen_pos ho0
  have hint : x.isInt = true ↔ (bitLen o : ℤ) ≤ x.exp := by
    unfold isInt
    rw [hf, hmp]
    simp only [Bool.and_eq_true, Bool.or_eq_true, decide_eq_true_eq]
    omega
  rw [hint]
  constructor
  · intro h
    obtain ⟨d, hd⟩ := Int.eq_ofNat_of_zero_le (by omega : 0 ≤ x.exp - bitLen o)
    exact ⟨o * 2 ^ d, by rw [hmag, hd, zpow_natCast]; push_cast; ring⟩
  · rintro ⟨n, hn⟩
    by_contra hc
    obtain ⟨d, hd⟩ : ∃ d : ℕ, x.exp - bitLen o = -((d + 1 : ℕ) : ℤ) := ⟨(-(x.exp - bitLen o) - 1).toNat, by omega⟩
    rw [hmag, hd, zpow_neg, zpow_natCast, ← div_eq_mul_inv, div_eq_iff (by positivity)] at hn
    have : o = n * 2 ^ (d + 1) := by exact_mod_cast hn
    rw [pow_succ, ← Nat.mul_assoc] at this
    omega

theorem isInt_eq {x : BigFloat} (hx : x.WF) (hf : x.form = .finite) : x.isInt = decide ((⌊x.mag⌋ : ℚ) = x.mag) := by
  rw [Bool.eq_iff_iff, isInt_iff hx hf, decide_eq_true_eq]
  constructor
  · rintro ⟨n, h⟩; rw [h]; simp
  · intro h
    have h0 : 0 ≤ ⌊x.mag⌋ := Int.floor_nonneg.2 (mag_pos (hx.mant_pos hf)).le
    obtain ⟨n, hn⟩ := Int.eq_ofNat_of_zero_le h0
    exact ⟨n, by rw [← h, hn]; rfl⟩

/-- `Uint64` of a non-negative number below `2^64`. -/
theorem uint64_eq {x : BigFloat} (hf : x.form = .finite) (hn : x.neg = false) (he : x.exp ≤ 64) (hm : 0 < x.mant) :
    ((x.uint64.1).toNat : ℤ) = ⌊x.mag⌋ := by
  unfold uint64
  rw [hf, hn]
  simp only [Bool.false_eq_true, if_false]
  by_cases h : x.exp ≤ 0
  · rw [if_pos h]
    have h1 := mag_lt x
    have h2 : (2 : ℚ) ^ x.exp ≤ 1 := zpow_le_one_of_nonpos₀ (by norm_num) h
    have h3 : ⌊x.mag⌋ = 0 := by
      rw [Int.floor_eq_iff]; push_cast
      exact ⟨(mag_pos hm).le, by linarith⟩
    rw [h3]; rfl
  · rw [if_neg h, if_pos he]
    have h1 := mag_lt x
    have h2 : (2 : ℚ) ^ x.exp ≤ 2 ^ (64 : ℤ) := zpow_le_zpow_right₀ (by norm_num) he
    have h3 : ⌊x.mag⌋ < (2 ^ 64 : ℤ) := by
      rw [Int.floor_lt]; push_cast; exact lt_of_lt_of_le h1 (by exact_mod_cast h2)
    rw [← truncMag_eq] at h3 ⊢
    have h4 : x.truncMag < 2 ^ 64 := by exact_mod_cast h3
    simp only [BitVec.toNat_ofNat]
    rw [Nat.mod_eq_of_lt h4]

/-- The common part of all `NewFromBig`: comparing with zero. -/
theorem cmp_zero_finite {x z : BigFloat} (hf : x.form = .finite) (hz : z.form = .zero) : x.cmp z ≠ .eq := by
  unfold cmp ord
  rw [hf, hz]
  cases x.neg <;> simp

theorem cmp_zero_zero {x z : BigFloat} (hf : x.form = .zero) (hz : z.form = .zero) : x.cmp z = .eq := by
  unfold cmp ord
  rw [hf, hz]
  simp

/-- The mantissa prepared by `NewFromBig` for subnormal results: scaled, then made non-negative. -/
theorem mant_scale_abs {x : BigFloat} (hx : x.WF) (hf : x.form = .finite) {k : ℤ} (h1 : MinExp ≤ k) (h2 : k ≤ MaxExp) :
    ∃ a : BigFloat, (if (x.mantExp.2.setMantExpSelf k).signbit then (x.mantExp.2.setMantExpSelf k).negSelf
        else x.mantExp.2.setMantExpSelf k) = a ∧
      a.form = .finite ∧ a.neg = false ∧ a.exp = k ∧ a.WF ∧ a.mag = x.mag * 2 ^ (k - x.exp) := by
  have hz : ({ x with exp := 0 } : BigFloat).WF :=
    ⟨hx.prec_le, hx.mant_pos, fun _ => by simp [MinExp], fun _ => by simp [MaxExp], hx.prec_pos, hx.fits⟩
  have hme : x.mantExp.2 = { x with exp := 0 } := by unfold mantExp; rw [if_pos hf]
  rw [hme]
  obtain ⟨m, h, -, -, hw, hmag⟩ := setMantExpSelf_spec hz (by simpa using hf) (k := k) (by simpa using h1) (by simpa using h2)
  have hab : (if (({ x with exp := 0 } : BigFloat).setMantExpSelf k).signbit then
        (({ x with exp := 0 } : BigFloat).setMantExpSelf k).negSelf
      else ({ x with exp := 0 } : BigFloat).setMantExpSelf k) =
      { (({ x with exp := 0 } : BigFloat).setMantExpSelf k) with neg := false } := by
    unfold signbit negSelf
    generalize ({ x with exp := 0 } : BigFloat).setMantExpSelf k = z
    cases hs : z.neg with
    | true => simp
    | false => simp [← hs]
  refine ⟨_, rfl, ?_⟩
  rw [hab]
  refine ⟨by rw [h]; exact hf, rfl, by rw [h]; simp, hw.withSign false, ?_⟩
  have h3 : ({ (({ x with exp := 0 } : BigFloat).setMantExpSelf k) with neg := false } : BigFloat).mag
      = (({ x with exp := 0 } : BigFloat).setMantExpSelf k).mag := rfl
  rw [h3, hmag, mag_eq, mag_eq]
  simp only
  rw [mul_assoc, mul_assoc, ← zpow_add₀ (by norm_num), ← zpow_add₀ (by norm_num)]
  congr 2; ring

/-- The mantissa prepared by `NewFromBig` for normal results: made non-negative, then scaled. -/
theorem mant_abs_scale {x : BigFloat} (hx : x.WF) (hf : x.form = .finite) {k : ℤ} (h1 : MinExp ≤ k) (h2 : k ≤ MaxExp) :
    ∃ a : BigFloat, (if x.mantExp.2.signbit then x.mantExp.2.negSelf else x.mantExp.2).setMantExpSelf k = a ∧
      a.form = .finite ∧ a.neg = false ∧ a.exp = k ∧ a.WF ∧ a.mag = x.mag * 2 ^ (k - x.exp) := by
  have hz : ({ x with exp := 0, neg := false } : BigFloat).WF :=
    ⟨hx.prec_le, hx.mant_pos, fun _ => by simp [MinExp], fun _ => by simp [MaxExp], hx.prec_pos, hx.fits⟩
  have hme : (if x.mantExp.2.signbit then x.mantExp.2.negSelf else x.mantExp.2) = { x with exp := 0, neg := false } := by
    unfold mantExp signbit negSelf; rw [if_pos hf]
    cases hs : x.neg <;> simp
  rw [hme]
  obtain ⟨m, h, -, -, hw, hmag⟩ := setMantExpSelf_spec hz (by simpa using hf) (k := k) (by simpa using h1) (by simpa using h2)
  refine ⟨_, rfl, by rw [h]; exact hf, by rw [h], by rw [h]; simp, hw, ?_⟩
  rw [hmag, mag_eq, mag_eq]
  simp only
  rw [mul_assoc, mul_assoc, ← zpow_add₀ (by norm_num), ← zpow_add₀ (by norm_num)]
  congr 2; ring

/-- The integer part of the mantissa scaled to `p` bits is a `p`-bit number with its top bit set. -/
theorem floor_scaled {x : BigFloat} (hm : 0 < x.mant) {p : ℕ} (hp : 1 ≤ p) :
    (2 : ℤ) ^ (p - 1) ≤ ⌊x.mag * 2 ^ ((p : ℤ) - x.exp)⌋ ∧ ⌊x.mag * 2 ^ ((p : ℤ) - x.exp)⌋ < 2 ^ p := by
  have h1 := mag_lt x
  have h2 := le_mag hm
  have h0 : (0 : ℚ) < 2 ^ ((p : ℤ) - x.exp) := by positivity
  constructor
  · rw [Int.le_floor]
    push_cast
    calc (2 : ℚ) ^ (p - 1) = 2 ^ (x.exp - 1) * 2 ^ ((p : ℤ) - x.exp) := by
          rw [← zpow_natCast, ← zpow_add₀ (by norm_num)]; congr 1; push_cast [hp]; ring
      _ ≤ _ := mul_le_mul_of_nonneg_right h2 h0.le
  · rw [Int.floor_lt]
    push_cast
    calc x.mag * 2 ^ ((p : ℤ) - x.exp) < 2 ^ x.exp * 2 ^ ((p : ℤ) - x.exp) := mul_lt_mul_of_pos_right h1 h0
      _ = 2 ^ p := by rw [← zpow_natCast, ← zpow_add₀ (by norm_num)]; congr 1; ring

end BigFloat

end GoFloat
