import Verif.Proofs.FormatFloat
import Verif.Props.ExtFloat
/-
The text of FormatFloat with a fixed precision, and what it denotes.
-/
namespace GoFloat.Strconv
open Spec

theorem DecimalFormat.digit {fmt : Char} (h : DecimalFormat fmt) : DigitFmt fmt := by
  unfold DecimalFormat at h
  unfold DigitFmt
  simpa using h

theorem value_split {F : Format} (hF : GoFormat F) {c : ℕ} {s : Bool} {m : ℚ} (hc : F.decode c = .num s m) :
    ∃ n k N, Split F n k N ∧ m = F.magc n ∧ F.decode c = F.decode (F.signPart s + n) ∧ c % 2 = (F.signPart s + n) % 2 ∧ (N = 0 ↔ m = 0) := by
  obtain ⟨n, hn, rfl, -⟩ := F.code_of_decode hc
  obtain ⟨k, N, hs⟩ := exists_split F hn
  obtain ⟨d1, d2⟩ := code_canonical hF hn hc
  exact ⟨n, k, N, hs, rfl, d1, d2, by rw [hs.zero_iff, magc_eq_zero]⟩

/-- The digits of a decimal that is a multiple of a unit end there. -/
theorem normal_unit {ds : List ℕ} {dp : ℤ} (hd : NormalDec ds dp) {z : ℕ} {e : ℤ} (h : decValue ds dp = z * (10 : ℚ) ^ e) :
    e ≤ dp - ds.length ∨ ds = [] := by
  by_cases hne : ds = []
  · exact Or.inr hne
  left
  by_contra hc
  obtain ⟨b, hb⟩ : ∃ b : ℕ, e = dp - ds.length + (b + 1 : ℕ) := ⟨(e - (dp - ds.length) - 1).toNat, by push_cast at hc ⊢; omega⟩
  rw [decValue_eq, hb, zpow_add₀ (by norm_num), zpow_natCast, mul_comm ((10 : ℚ) ^ (dp - (ds.length : ℤ))), ← mul_assoc] at h
  have h4 := mul_right_cancel₀ (show ((10 : ℚ) ^ (dp - (ds.length : ℤ))) ≠ 0 by positivity) h
  have h5 : dv ds = z * 10 ^ (b + 1) := by exact_mod_cast h4
  apply not_ten_dvd hd.digit hd.last hne
  rw [h5, pow_succ, ← mul_assoc]
  exact Dvd.intro_left _ rfl

theorem round_nil {d : Decimal} (h : d.d = []) (n : ℤ) : d.round n = d := by
  unfold Decimal.round
  rw [if_pos]
  by_cases h0 : n < 0
  · exact Or.inl h0
  · right
    have : d.nd = 0 := by unfold Decimal.nd; rw [h]; rfl
    omega

/-- Rounding to a number of digits at most moves the value by half. -/
theorem rounded_range {n : ℕ} {v y : ℚ} (hv : 0 < v) (h : RoundedDigits n v y) : v / 2 ≤ y ∧ y ≤ 2 * v := by
  obtain ⟨z, e, h1, -, ⟨h2, -⟩, rfl⟩ := h
  have hu : (0 : ℚ) < (10 : ℚ) ^ e := by positivity
  have h0 : (1 : ℚ) ≤ v / (10 : ℚ) ^ e := le_trans (one_le_pow₀ (by norm_num)) h1
  have hve : v = v / (10 : ℚ) ^ e * (10 : ℚ) ^ e := by field_simp
  generalize v / (10 : ℚ) ^ e = w at *
  rw [hve]
  rw [abs_le] at h2
  push_cast at h2
  constructor
  · have : w / 2 ≤ z := by linarith [h2.2]
    nlinarith
  · have : (z : ℚ) ≤ 2 * w := by linarith [h2.1]
    nlinarith

variable {W : ℕ} {F : Format} {size : ℤ} {fmt : Char} {prec : ℤ} {c : ℕ} {s : Bool} {m : ℚ} {val : F64}

theorem small_exp (hF : GoFormat F) {n k N : ℕ} (hs : Split F n k N) {ds : List ℕ} {dp : ℤ} (hd : NormalDec ds dp)
    (h : ds = [] ∨ N ≠ 0 ∧ F.magc n / 2 ≤ decValue ds dp ∧ decValue ds dp ≤ 2 * F.magc n) : (expOf ds dp).natAbs < 1000 := by
  rcases h with rfl | ⟨hN, h1, h2⟩
  · unfold expOf
    simp
  · obtain ⟨r1, r2⟩ := hs.range hF hN
    have e1 : (2 : ℚ) ^ (-1100 : ℤ) ≤ (2 : ℚ) ^ (-1074 - 1 : ℤ) := zpow_le_zpow_right₀ (by norm_num) (by norm_num)
    have e2 : (2 : ℚ) ^ (1024 + 1 : ℤ) ≤ (2 : ℚ) ^ (1100 : ℤ) := zpow_le_zpow_right₀ (by norm_num) (by norm_num)
    rw [zpow_sub_one₀ (by norm_num)] at e1
    rw [zpow_add_one₀ (by norm_num)] at e2
    exact expOf_small hd (Or.inr (by linarith)) (le_trans (le_trans h2 (by rw [mul_comm]; exact mul_le_mul_of_nonneg_right r2.le (by norm_num))) e2)

/-- Formats `e` and `g`: the digits are the exact value rounded to the number of digits asked for. -/
theorem fixed_text_eg (hW : W = 32 ∨ W = 64) (hS : SizeOf F size) (hfmt : DecimalFormat fmt) (hf : fmt ≠ 'f') (hp : 0 ≤ prec) (opt : Bool)
    (hc : F.decode c = .num s m) (hd : double.decode val.toNat = .num s m) :
    ∃ (ds : List ℕ) (dp : ℤ), NormalDec ds dp ∧ (ds = [] ↔ m = 0) ∧
      (ds.length : ℤ) ≤ (if fmt = 'g' ∨ fmt = 'G' then max prec 1 else prec + 1) ∧
      (m ≠ 0 → RoundedDigits (if fmt = 'g' ∨ fmt = 'G' then max prec 1 else prec + 1).toNat m (decValue ds dp)) ∧
      (expOf ds dp).natAbs < 1000 ∧
      genericFtoa W opt val fmt prec size = .ok (formatDigits false s ⟨ds.map (· + 48), dp, false⟩
        (if fmt = 'g' ∨ fmt = 'G' then max prec 1 else prec) fmt) := by
  have hF := hS.go
  obtain ⟨n, k, N, hs, rfl, -, -, hz⟩ := value_split hF hc
  obtain ⟨d, d1, d2, d3, d4⟩ := bigFtoa_fixed hW hF hs hp s hfmt.digit
  have hask : askedDigits fmt d.dp prec = (if fmt = 'g' ∨ fmt = 'G' then max prec 1 else prec + 1) := by
    unfold askedDigits
    rcases hfmt.digit with rfl | rfl | rfl | rfl | rfl
    · rfl
    · rfl
    · exact absurd rfl hf
    · rfl
    · rfl
  rw [hask] at d4
  obtain ⟨P, hP⟩ : ∃ P : ℕ, (if fmt = 'g' ∨ fmt = 'G' then max prec 1 else prec + 1) = (P : ℤ) :=
    Int.eq_ofNat_of_zero_le (by split <;> omega)
  have hP1 : 1 ≤ P := by
    have : (1 : ℤ) ≤ P := by rw [← hP]; split <;> omega
    omega
  rw [hP] at d4
  rw [hP, Int.toNat_natCast]
  have hgen : genericFtoa W opt val fmt prec size = .ok (formatDigits false s ⟨(d.round P).d.map (· + 48), (d.round P).dp, false⟩
      (if fmt = 'g' ∨ fmt = 'G' then max prec 1 else prec) fmt) := by
    rw [genericFtoa_finite hS hs hd, ftoaFinite_fixed hW hF hs opt hp s hfmt.digit, d4]
  by_cases hm : F.magc n = 0
  · have hnil : d.d = [] := by
      by_contra hne
      have := (decValue_pos d1 hne).1
      rw [d2, hm] at this
      exact absurd this (not_le.2 (by positivity))
    rw [round_nil hnil] at hgen
    exact ⟨d.d, d.dp, d1, by simp [hnil, hm], by rw [hnil]; simp, fun h => absurd hm h, small_exp hF hs d1 (Or.inl hnil), hgen⟩
  · have hpos : 0 < F.magc n := lt_of_le_of_ne (F.magc_nonneg n) (Ne.symm hm)
    have hne : d.d ≠ [] := ne_nil_of_pos (dp := d.dp) (by rw [d2]; exact hpos)
    obtain ⟨r1, r2, r3, r4⟩ := round_digits d1 d3 hne hP1
    rw [d2] at r4
    exact ⟨_, _, r1, by simp [r2, hm], by exact_mod_cast r3, fun _ => r4,
      small_exp hF hs r1 (Or.inr ⟨fun h => hm (hz.1 h), rounded_range hpos r4⟩), hgen⟩

/-- A number below the last place prints as zero. -/
theorem fmtF_tiny (neg : Bool) {ds : List ℕ} (hd : ∀ x ∈ ds, x < 10) {dp : ℤ} (x : Bool) {prec : ℤ} (hp : 0 ≤ prec) (h : dp + prec < 0) :
    fmtF neg ⟨ds.map (· + 48), dp, x⟩ prec = fmtF neg ⟨([] : List ℕ).map (· + 48), 0, x⟩ prec := by
  rw [fmtF_eq neg hd, fmtF_eq neg (by simp)]
  have e1 : intF ds dp = intF [] 0 := by
    unfold intF
    rw [if_neg (by omega), if_neg (by omega)]
  have e2 : fracF ds dp prec = fracF [] 0 prec := by
    unfold fracF
    apply List.map_congr_left
    intro i hi
    rw [List.mem_range] at hi
    rw [if_neg (by omega)]
    simp
  rw [e1, e2]

/-- Format `f`: the digits are the exact value rounded to the places asked for. -/
theorem fixed_text_f (hW : W = 32 ∨ W = 64) (hS : SizeOf F size) (hp : 0 ≤ prec) (opt : Bool)
    (hc : F.decode c = .num s m) (hd : double.decode val.toNat = .num s m) :
    ∃ (ds : List ℕ) (dp : ℤ) (z : ℕ), NormalDec ds dp ∧ NearestEven (m * (10 : ℚ) ^ prec) z ∧ decValue ds dp = z * (10 : ℚ) ^ (-prec) ∧
      ((ds.length : ℤ) ≤ dp + prec ∨ ds = []) ∧
      genericFtoa W opt val 'f' prec size = .ok (fmtF s ⟨ds.map (· + 48), dp, false⟩ prec) := by
  have hF := hS.go
  have hfmt : DigitFmt 'f' := by unfold DigitFmt; simp
  obtain ⟨n, k, N, hs, rfl, -, -, hz⟩ := value_split hF hc
  obtain ⟨d, d1, d2, d3, d4⟩ := bigFtoa_fixed hW hF hs hp s hfmt
  have hask : askedDigits 'f' d.dp prec = d.dp + prec := rfl
  rw [hask, if_neg (by decide)] at d4
  have hgen : genericFtoa W opt val 'f' prec size = .ok (fmtF s ⟨(d.round (d.dp + prec)).d.map (· + 48), (d.round (d.dp + prec)).dp, false⟩ prec) := by
    rw [genericFtoa_finite hS hs hd, ftoaFinite_fixed hW hF hs opt hp s hfmt, d4]
    rfl
  have hnd : d.nd = d.d.length := rfl
  rw [← d2]
  by_cases hneg : d.dp + prec < 0
  · have hr : d.round (d.dp + prec) = d := by
      unfold Decimal.round
      rw [if_pos (Or.inl hneg)]
    rw [hr] at hgen
    refine ⟨[], 0, 0, ⟨by simp, by simp, by simp, fun _ => rfl⟩, ?_, by simp [decValue], Or.inr rfl, ?_⟩
    · have h0 : 0 ≤ decValue d.d d.dp := by rw [decValue_eq]; positivity
      have h1 : decValue d.d d.dp ≤ (10 : ℚ) ^ d.dp := by
        by_cases hne : d.d = []
        · rw [hne]; simp only [decValue, List.foldl_nil, Nat.cast_zero, zero_mul]; positivity
        · exact (decValue_pos d1 hne).2.le
      have h2 : decValue d.d d.dp * (10 : ℚ) ^ prec ≤ (10 : ℚ) ^ (-1 : ℤ) := by
        calc _ ≤ (10 : ℚ) ^ d.dp * (10 : ℚ) ^ prec := mul_le_mul_of_nonneg_right h1 (by positivity)
          _ = (10 : ℚ) ^ (d.dp + prec) := by rw [zpow_add₀ (by norm_num)]
          _ ≤ _ := zpow_le_zpow_right₀ (by norm_num) (by omega)
      have h3 : 0 ≤ decValue d.d d.dp * (10 : ℚ) ^ prec := by positivity
      have h4 : decValue d.d d.dp * (10 : ℚ) ^ prec ≤ 1 / 10 := by
        rw [show (10 : ℚ) ^ (-1 : ℤ) = 1 / 10 by norm_num] at h2
        exact h2
      unfold NearestEven
      push_cast
      rw [sub_zero, abs_of_nonneg h3]
      exact ⟨by linarith, fun _ => by decide⟩
    · rw [hgen, fmtF_tiny s d1.digit false hp hneg]
  · obtain ⟨P, hP⟩ := Int.eq_ofNat_of_zero_le (not_lt.1 hneg)
    rw [hP] at hgen
    have hexp : d.dp - (P : ℤ) = -prec := by omega
    by_cases hlt : P < d.d.length
    · obtain ⟨r1, -, ⟨z, r3, r4⟩, -, -⟩ := round_spec d1 hlt (y := decValue d.d d.dp) (by unfold Represents; rw [d3]; rfl)
      rw [hexp] at r3 r4
      refine ⟨_, _, z, r1, ?_, r4, ?_, hgen⟩
      · rw [zpow_neg, div_inv_eq_mul] at r3
        exact r3
      · rcases normal_unit r1 r4 with h | h
        · left; omega
        · exact Or.inr h
    · have hr : d.round P = d := by
        unfold Decimal.round
        rw [if_pos (Or.inr (by rw [hnd]; omega))]
      rw [hr] at hgen
      have hval : decValue d.d d.dp = ((dv d.d * 10 ^ (P - d.d.length) : ℕ) : ℚ) * (10 : ℚ) ^ (-prec) := by
        rw [decValue_eq]
        push_cast
        rw [mul_assoc, ← zpow_natCast (10 : ℚ) (P - d.d.length), ← zpow_add₀ (by norm_num)]
        congr 2
        omega
      refine ⟨d.d, d.dp, _, d1, ?_, hval, Or.inl (by omega), hgen⟩
      have : decValue d.d d.dp * (10 : ℚ) ^ prec = ((dv d.d * 10 ^ (P - d.d.length) : ℕ) : ℚ) := by
        rw [hval, mul_assoc, ← zpow_add₀ (by norm_num)]
        simp
      rw [this]
      unfold NearestEven
      push_cast
      rw [sub_self, abs_zero]
      exact ⟨by norm_num, fun h => absurd h (by norm_num)⟩

end GoFloat.Strconv
