import Verif.Proofs.Widen
/-
Truncation to a format: what the `NewFromBig` functions compute inside the range of the format.
-/
namespace GoFloat
open Spec

/-- The code computed by the `NewFromBig` functions for a magnitude inside the range. -/
def truncCode (F : Format) (x : BigFloat) : ℤ :=
  if x.exp - 1 + F.bias ≤ 0 then ⌊x.mag * 2 ^ (-F.qmin)⌋
  else (x.exp - 1 + F.bias) * 2 ^ F.t + (⌊x.mag * 2 ^ ((F.t : ℤ) + 1 - x.exp)⌋ - 2 ^ F.t)

/-- It is the largest code of the format that does not exceed the magnitude. -/
theorem truncCode_spec (F : Format) (hw : 2 ≤ F.w) {x : BigFloat} (hm : 0 < x.mant)
    (hhi : x.exp ≤ F.bias + 1) :
    ∃ n : ℕ, truncCode F x = n ∧ n < F.infCode ∧ F.magc n ≤ x.mag ∧ x.mag < F.magc (n + 1) := by
  have hmag := BigFloat.mag_pos hm
  have hb := bias_pos F hw
  have hlt := BigFloat.mag_lt x
  have hge := BigFloat.le_mag hm
  -- in terms of k and N
  obtain ⟨k, hk⟩ : ∃ k : ℕ, (k : ℤ) = max (x.exp - 1 + F.bias) 1 - 1 := ⟨(max (x.exp - 1 + F.bias) 1 - 1).toNat, by omega⟩
  have hq0 : (0 : ℚ) < 2 ^ (F.qmin + k) := by positivity
  have hv0 : 0 ≤ x.mag / 2 ^ (F.qmin + k) := by positivity
  obtain ⟨N, hN⟩ : ∃ N : ℕ, (N : ℤ) = ⌊x.mag / 2 ^ (F.qmin + k)⌋ :=
    ⟨⌊x.mag / 2 ^ (F.qmin + k)⌋.toNat, Int.toNat_of_nonneg (Int.floor_nonneg.2 hv0)⟩
  have hNle : (N : ℚ) ≤ x.mag / 2 ^ (F.qmin + k) := by
    have := Int.floor_le (x.mag / 2 ^ (F.qmin + k)); rw [← hN] at this; exact_mod_cast this
  have hNlt : x.mag / 2 ^ (F.qmin + k) < N + 1 := by
    have := Int.lt_floor_add_one (x.mag / 2 ^ (F.qmin + k)); rw [← hN] at this; exact_mod_cast this
  rw [le_div_iff₀ hq0] at hNle
  rw [div_lt_iff₀ hq0] at hNlt
  have hNhi : N < 2 ^ (F.t + 1) := by
    have h1 : x.mag < 2 ^ (F.t + 1) * 2 ^ (F.qmin + k) := by
      refine hlt.trans_le ?_
      rw [← zpow_natCast, ← zpow_add₀ (by norm_num)]
      refine zpow_le_zpow_right₀ (by norm_num) ?_
      unfold Format.qmin; push_cast; omega
    have h2 : (N : ℚ) * 2 ^ (F.qmin + k) < 2 ^ (F.t + 1) * 2 ^ (F.qmin + k) := hNle.trans_lt h1
    have h3 := lt_of_mul_lt_mul_right h2 hq0.le
    exact_mod_cast h3
  have hNlo : k = 0 ∨ 2 ^ F.t ≤ N := by
    rcases Nat.eq_zero_or_pos k with h | h
    · exact Or.inl h
    · right
      have h1 : (2 : ℚ) ^ F.t * 2 ^ (F.qmin + k) ≤ x.mag := by
        refine le_trans ?_ hge
        rw [← zpow_natCast, ← zpow_add₀ (by norm_num)]
        refine zpow_le_zpow_right₀ (by norm_num) ?_
        unfold Format.qmin; omega
      have h2 : (2 : ℚ) ^ F.t * 2 ^ (F.qmin + k) < (N + 1) * 2 ^ (F.qmin + k) := h1.trans_lt hNlt
      have h3 := lt_of_mul_lt_mul_right h2 hq0.le
      have h4 : 2 ^ F.t < N + 1 := by exact_mod_cast h3
      omega
  have hc : truncCode F x = (k * 2 ^ F.t + N : ℕ) := by
    unfold truncCode
    split
    · rename_i h
      have hk0 : k = 0 := by omega
      rw [hk0] at hN
      rw [hk0, zpow_neg, ← div_eq_mul_inv]
      simp only [Nat.cast_zero, add_zero] at hN
      rw [← hN]; simp
    · rename_i h
      have hk1 : (k : ℤ) = x.exp - 1 + F.bias - 1 := by omega
      have h5 : (F.t : ℤ) + 1 - x.exp = -(F.qmin + k) := by unfold Format.qmin; omega
      rw [h5, zpow_neg, ← div_eq_mul_inv, ← hN]
      push_cast
      rw [hk1]; ring
  have hm1 := F.magc_eq hNhi.le hNlo
  have hm2 := F.magc_eq (k := k) (N := N + 1) hNhi (hNlo.imp id (fun h => h.trans (Nat.le_succ _)))
  refine ⟨k * 2 ^ F.t + N, hc, ?_, by rw [hm1]; exact hNle, ?_⟩
  · by_contra hcon
    push Not at hcon
    have h6 := F.magc_strictMono.monotone hcon
    rw [magc_infCode F hw, hm1] at h6
    have h7 : x.mag < 2 ^ (F.bias + 1) := hlt.trans_le (zpow_le_zpow_right₀ (by norm_num) hhi)
    linarith
  · rw [Nat.add_assoc, hm2]; push_cast; exact hNlt

/-- A number of the format is kept. -/
theorem truncCode_exact (F : Format) (hw : 2 ≤ F.w) {x : BigFloat} (hm : 0 < x.mant)
    {n : ℕ} (hn : n < F.infCode) (h : x.mag = F.magc n) : truncCode F x = n ∧ F.qmin < x.exp ∧ x.exp ≤ F.bias + 1 := by
  have hhi : x.exp ≤ F.bias + 1 := BigFloat.exp_lt_of_mag hm (by rw [h]; exact magc_lt_max F hw hn)
  obtain ⟨n', h1, h2, h3, h4⟩ := truncCode_spec F hw hm hhi
  rw [h] at h3 h4
  have h5 : n' ≤ n := F.magc_strictMono.le_iff_le.1 h3
  have h6 : n < n' + 1 := F.magc_strictMono.lt_iff_lt.1 h4
  refine ⟨by rw [h1]; omega, ?_, hhi⟩
  have hp := BigFloat.mag_pos hm
  have hn0 : 1 ≤ n := by
    rcases Nat.eq_zero_or_pos n with h0 | h0
    · rw [h, (magc_eq_zero F).2 h0] at hp; exact absurd hp (lt_irrefl _)
    · exact h0
  have h8 : F.magc 1 ≤ x.mag := by rw [h]; exact F.magc_strictMono.monotone hn0
  have h9 : F.magc 1 = 2 ^ F.qmin := by
    have := F.magc_eq (k := 0) (N := 1) Nat.one_le_two_pow (Or.inl rfl)
    simpa using this
  rw [h9] at h8
  exact BigFloat.exp_gt_of_mag h8

/-- In the normal range the scaled magnitude is an integer exactly when the truncation is exact. -/
theorem floor_iff_magc (F : Format) {x : BigFloat} (hm : 0 < x.mant)
    (hlo : 1 ≤ x.exp - 1 + F.bias) {n : ℕ} (hn : truncCode F x = n) :
    (⌊x.mag * 2 ^ ((F.t : ℤ) + 1 - x.exp)⌋ : ℚ) = x.mag * 2 ^ ((F.t : ℤ) + 1 - x.exp) ↔ F.magc n = x.mag := by
  have hfl := BigFloat.floor_scaled hm (p := F.t + 1) (by omega)
  rw [Nat.cast_add, Nat.cast_one] at hfl
  obtain ⟨N, hN⟩ : ∃ N : ℕ, (N : ℤ) = ⌊x.mag * 2 ^ ((F.t : ℤ) + 1 - x.exp)⌋ :=
    ⟨⌊x.mag * 2 ^ ((F.t : ℤ) + 1 - x.exp)⌋.toNat, Int.toNat_of_nonneg (le_trans (by positivity) hfl.1)⟩
  rw [← hN] at hfl
  have h1 : 2 ^ F.t ≤ N := by have := hfl.1; simp only [Nat.add_sub_cancel] at this; exact_mod_cast this
  have h2 : N < 2 ^ (F.t + 1) := by exact_mod_cast hfl.2
  obtain ⟨k, hk⟩ : ∃ k : ℕ, (k : ℤ) = x.exp - 1 + F.bias - 1 := ⟨(x.exp - 1 + F.bias - 1).toNat, by omega⟩
  have hc : n = k * 2 ^ F.t + N := by
    unfold truncCode at hn
    have hneg : ¬ (x.exp - 1 + F.bias ≤ 0) := by omega
    rw [if_neg hneg, ← hN] at hn
    have : (n : ℤ) = ((k * 2 ^ F.t + N : ℕ) : ℤ) := by rw [← hn]; push_cast; rw [hk]; ring
    exact_mod_cast this
  rw [hc, F.magc_eq h2.le (Or.inr h1), ← hN]
  have h5 : (F.t : ℤ) + 1 - x.exp = -(F.qmin + k) := by unfold Format.qmin; omega
  rw [h5, zpow_neg, eq_mul_inv_iff_mul_eq₀ (by positivity)]
  push_cast
  rfl

/-- The sign bit of a code. -/
theorem bit_of_code (F : Format) (neg : Bool) {n : ℕ} (h : n < 2 ^ (F.t + F.w)) :
    decide ((F.signPart neg + n) / 2 ^ (F.t + F.w) % 2 = 1) = neg := by
  rw [(F.code_fields neg h).1]; cases neg <;> simp

/-- The datum of a code with a given sign. -/
theorem decode_sign_code (F : Format) (neg : Bool) {n : ℕ} (h : n < 2 ^ (F.t + F.w)) :
    (F.decode (F.signPart neg + n)).sign = neg := by
  rw [decode_sign, bit_of_code F neg h]

/-- Rounding to `t+1` bits in the normal range and below the overflow is what `toIEEE` does: the rounded
number is either a number of the format, with the code of `toIEEE`, or the power of two that `toIEEE` maps
to the infinity. -/
theorem rounded_toIEEE (F : Format) (hw2 : 2 ≤ F.w) (hw30 : F.w ≤ 30) {x : BigFloat} (hx : x.WF) (hf : x.form = .finite)
    (hlo : 1 - F.bias ≤ x.exp - 1) :
    ∃ n, ((rhe (x.mag / 2 ^ (x.exp - (F.t + 1 : ℕ))) : ℤ) : ℚ) * 2 ^ (x.exp - (F.t + 1 : ℕ)) = F.magc n ∧
      (n < F.infCode → x.toIEEE F.t F.w = (F.signPart x.neg + n, BigFloat.accOf x.neg (F.magc n) x.mag)) ∧
      (F.infCode ≤ n → x.toIEEE F.t F.w = (F.signPart x.neg + F.infCode, makeAcc (!x.neg))) := by
  obtain ⟨k, N, hk, hN, hr⟩ := toIEEE_formula F hw2 hw30 hx hf
  have hm := hx.mant_pos hf
  have hq : x.exp - (F.t + 1 : ℕ) = F.qmin + k := by unfold Format.qmin; push_cast; omega
  have hbb := binade_bounds F hm hk
  obtain ⟨h1, h2, -, -⟩ := nearest_code F hbb.1 hbb.2 hN
  have hmg := F.magc_eq h1 h2
  refine ⟨k * 2 ^ F.t + N, ?_, ?_, ?_⟩
  · rw [hq, ← hN, hmg]; push_cast; rfl
  · intro h; rw [hr, if_neg (by omega), hmg]
  · intro h; rw [hr, if_pos h]

/-- `SetPrec` to fewer bits, in the mode ToNearestEven. -/
theorem BigFloat.setPrec_spec {y : BigFloat} (hy : y.WF) (hf : y.form = .finite) (hmode : y.mode = .toNearestEven)
    {p : ℕ} (hp : 1 ≤ p) (hlt : p < y.prec) (he : y.exp < BigFloat.MaxExp) :
    (y.setPrec p).form = .finite ∧ (y.setPrec p).WF ∧ (y.setPrec p).neg = y.neg ∧ (y.setPrec p).prec = p ∧
    (y.setPrec p).mode = .toNearestEven ∧
    (y.setPrec p).mag = (rhe (y.mag / 2 ^ (y.exp - p)) : ℤ) * (2 : ℚ) ^ (y.exp - p) ∧
    (y.setPrec p).acc = BigFloat.accOf y.neg (y.setPrec p).mag y.mag ∧
    ((y.setPrec p).exp = y.exp ∨ (y.setPrec p).exp = y.exp + 1 ∧ (y.setPrec p).mag = 2 ^ y.exp) := by
  have hple : p ≤ BigFloat.MaxPrec := hlt.le.trans hy.prec_le
  have hz : y.setPrec p = BigFloat.round { y with prec := p } := by
    unfold BigFloat.setPrec
    rw [if_neg (by omega), Nat.min_eq_left hple, if_pos hlt]
  have hr := BigFloat.round_nearest (z := { y with prec := p }) hf (hy.mant_pos hf) hp hmode
  simp only at hr
  rw [← hz] at hr
  have hmg : ({ y with prec := p } : BigFloat).mag = y.mag := rfl
  rw [hmg] at hr
  obtain ⟨h1, h2, h3, h4, h5⟩ := hr
  rcases h5 with ⟨h5, h6, h7, h8, h9⟩ | ⟨h5, h6, h7⟩
  · refine ⟨h5, ⟨by rw [h2]; exact hple, fun _ => h6, fun _ => ?_, fun _ => ?_, fun _ => by rw [h2]; exact hp,
      fun _ => by rw [h2]; exact h9⟩, h1, h2, by rw [h3]; exact hmode, h7, by rw [h4, h7], ?_⟩
    · have := hy.exp_ge hf; omega
    · have := hy.exp_le hf; omega
    · rcases h8 with ⟨h8, -⟩ | ⟨h8, h10, -⟩
      · exact Or.inl h8
      · right
        refine ⟨h8, ?_⟩
        rw [h7, h10]; push_cast; rw [← zpow_natCast, ← zpow_add₀ (by norm_num)]; congr 1; ring
  · omega

/-- Exponents of doubles are small. -/
theorem exp_double {y : BigFloat} (hy : y.WF) (hf : y.form = .finite) {c : ℕ} (hd : y.datum = double.decode c) :
    -1074 < y.exp ∧ y.exp ≤ 1024 := by
  rcases decode_cases double c with ⟨s, h⟩ | ⟨h, -⟩ | ⟨h, hc⟩
  · rw [h, BigFloat.datum_finite hf] at hd; simp at hd
  · rw [h, BigFloat.datum_finite hf] at hd; simp at hd
  · rw [h, BigFloat.datum_finite hf, Datum.num.injEq] at hd
    obtain ⟨-, h2, h3⟩ := truncCode_exact double (by decide) (hy.mant_pos hf) hc hd.2
    exact ⟨h2, h3⟩

theorem BigFloat.datum_inj_form {x : BigFloat} (hx : x.WF) {s : Bool} {m : ℚ} (hd : x.datum = .num s m) :
    x.neg = s ∧ (m = 0 → x.form = .zero) ∧ (m ≠ 0 → x.form = .finite ∧ x.mag = m) := by
  cases hf : x.form with
  | zero =>
    simp only [BigFloat.datum, hf, Datum.num.injEq] at hd
    exact ⟨hd.1, fun _ => rfl, fun h => absurd hd.2.symm h⟩
  | finite =>
    rw [BigFloat.datum_finite hf, Datum.num.injEq] at hd
    exact ⟨hd.1, fun h => absurd (hd.2.trans h) (BigFloat.mag_pos (hx.mant_pos hf)).ne', fun _ => ⟨rfl, hd.2⟩⟩
  | inf => simp [BigFloat.datum, hf] at hd

theorem BigFloat.datum_inf {x : BigFloat} {s : Bool} (hd : x.datum = .inf s) : x.neg = s ∧ x.form = .inf := by
  cases hf : x.form with
  | zero => simp [BigFloat.datum, hf] at hd
  | finite => simp [BigFloat.datum, hf] at hd
  | inf => simp only [BigFloat.datum, hf, Datum.inf.injEq] at hd; exact ⟨hd, rfl⟩

theorem BigFloat.datum_not_nan (x : BigFloat) (s : Bool) : x.datum ≠ .nan s := by
  cases hf : x.form <;> simp [BigFloat.datum, hf]

/-- `SetPrec` to fewer bits keeps zeros and infinities. -/
theorem BigFloat.setPrec_special {y : BigFloat} (hf : y.form ≠ .finite) {p : ℕ} (hp : 1 ≤ p) :
    (y.setPrec p).form = y.form ∧ (y.setPrec p).neg = y.neg := by
  unfold BigFloat.setPrec
  rw [if_neg (by omega)]
  simp only
  split
  · unfold BigFloat.round
    cases h : y.form with
    | zero => exact ⟨rfl, rfl⟩
    | finite => exact absurd h hf
    | inf => exact ⟨rfl, rfl⟩
  · exact ⟨rfl, rfl⟩

/-- The datum of a literal. -/
theorem BigFloat.datum_lit {x : BigFloat} (k : ℕ) (hf : x.form = .finite) (hk : bitLen x.mant = k) :
    x.datum = .num x.neg ((x.mant : ℚ) / 2 ^ k * 2 ^ x.exp) := by
  rw [BigFloat.datum_finite hf, BigFloat.mag, hk]

end GoFloat
