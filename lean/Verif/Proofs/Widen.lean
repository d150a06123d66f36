import Verif.Proofs.Conv
/-
Numbers that a format can represent, widening between formats, and Go's float conversions.
-/
namespace GoFloat
open Spec

/-- A number with few enough bits, in range, is a number of the format. -/
theorem exists_code (F : Format) (hw : 2 ≤ F.w) {N : ℕ} {q : ℤ} (hN : N < 2 ^ (F.t + 1)) (hq : F.qmin ≤ q)
    (hlt : (N : ℚ) * 2 ^ q < 2 ^ (F.bias + 1)) : ∃ n, n < F.infCode ∧ F.magc n = N * 2 ^ q := by
  have hb1 := bias_pos F hw
  have hPw := two_pow_w F (by omega)
  have hPt := Nat.two_pow_pos F.t
  have hif : F.infCode = (2 ^ F.w - 1) * 2 ^ F.t := rfl
  have hqm : F.qmin = 1 - F.bias - F.t := rfl
  have h3 : 3 * 2 ^ F.t ≤ F.infCode := by rw [hif]; exact Nat.mul_le_mul_right _ (by omega)
  by_cases hN0 : N = 0
  · refine ⟨0, by omega, ?_⟩
    subst hN0; simp [Format.magc]
  have hNp : 0 < N := Nat.pos_of_ne_zero hN0
  have hbl := bitLen_le_of_lt hN
  obtain ⟨j, hj⟩ := Int.eq_ofNat_of_zero_le (by omega : 0 ≤ q - F.qmin)
  obtain ⟨i, hi⟩ : ∃ i, i = min j (F.t + 1 - bitLen N) := ⟨_, rfl⟩
  have hN'b : bitLen (N * 2 ^ i) = bitLen N + i := bitLen_mul_two_pow hNp i
  have hN'1 : N * 2 ^ i < 2 ^ (F.t + 1) := lt_of_bitLen_le (by rw [hN'b]; omega)
  have hN'2 : j - i = 0 ∨ 2 ^ F.t ≤ N * 2 ^ i := by
    by_cases h : j - i = 0
    · exact Or.inl h
    · right
      have h1 := two_pow_le_of_pos (n := N * 2 ^ i) (by positivity)
      rw [hN'b] at h1
      rwa [show bitLen N + i - 1 = F.t by omega] at h1
  have hval : ((N * 2 ^ i : ℕ) : ℚ) * 2 ^ (F.qmin + ((j - i : ℕ) : ℤ)) = N * 2 ^ q := by
    push_cast
    rw [mul_assoc, ← zpow_natCast, ← zpow_add₀ (by norm_num)]
    congr 2; omega
  have hm := F.magc_eq (k := j - i) hN'1.le hN'2
  rw [hval] at hm
  refine ⟨_, ?_, hm⟩
  rw [pow_succ] at hN'1
  rcases hN'2 with h | h
  · rw [h]; omega
  · have h1 : (2 : ℚ) ^ (F.t : ℤ) * 2 ^ (F.qmin + ((j - i : ℕ) : ℤ)) < 2 ^ (F.bias + 1) := by
      refine lt_of_le_of_lt ?_ (hval ▸ hlt)
      apply mul_le_mul_of_nonneg_right _ (by positivity)
      rw [zpow_natCast]; exact_mod_cast h
    rw [← zpow_add₀ (by norm_num), zpow_lt_zpow_iff_right₀ (by norm_num)] at h1
    have h2 : (j - i) + 2 ≤ 2 ^ F.w - 1 := by omega
    calc (j - i) * 2 ^ F.t + N * 2 ^ i < ((j - i) + 2) * 2 ^ F.t := by rw [Nat.add_mul]; omega
      _ ≤ F.infCode := by rw [hif]; exact Nat.mul_le_mul_right _ h2

theorem magc_infCode (F : Format) (hw : 2 ≤ F.w) : F.magc F.infCode = 2 ^ (F.bias + 1) := by
  have hb1 := bias_pos F hw
  have hPw := two_pow_w F (by omega)
  have hge : 2 ≤ 2 ^ F.w - 1 := by omega
  have hif : F.infCode = (2 ^ F.w - 2) * 2 ^ F.t + 2 ^ F.t := by
    unfold Format.infCode
    rw [show 2 ^ F.w - 1 = (2 ^ F.w - 2) + 1 by omega, Nat.add_mul]; ring
  rw [hif, F.magc_eq (Nat.pow_le_pow_right (by norm_num) (by omega)) (Or.inr le_rfl)]
  push_cast
  rw [← zpow_natCast, ← zpow_add₀ (by norm_num)]
  congr 1
  have : ((2 ^ F.w - 2 : ℕ) : ℤ) = 2 * F.bias := by omega
  rw [this]; unfold Format.qmin; ring

theorem magc_lt_max (F : Format) (hw : 2 ≤ F.w) {n : ℕ} (h : n < F.infCode) : F.magc n < 2 ^ (F.bias + 1) := by
  rw [← magc_infCode F hw]; exact F.magc_strictMono h

/-- A number of a smaller format is a number of the larger format. -/
theorem magc_widen {F G : Format} (hw : 2 ≤ F.w) (hG : 2 ≤ G.w) (ht : F.t ≤ G.t) (hq : G.qmin ≤ F.qmin) (hb : F.bias ≤ G.bias)
    {n : ℕ} (hn : n < F.infCode) : ∃ n', n' < G.infCode ∧ G.magc n' = F.magc n := by
  obtain ⟨k, N, h1, h2, h3⟩ := F.code_split n
  have hm := F.magc_eq h2.le h3
  rw [← h1] at hm
  have hlt := magc_lt_max F hw hn
  rw [hm] at hlt ⊢
  refine exists_code G hG (h2.trans_le (Nat.pow_le_pow_right (by norm_num) (by omega))) (by omega) (hlt.trans_le ?_)
  exact zpow_le_zpow_right₀ (by norm_num) (by omega)

theorem magc_eq_zero (F : Format) {n : ℕ} : F.magc n = 0 ↔ n = 0 := by
  have h0 : F.magc 0 = 0 := by unfold Format.magc; simp
  constructor
  · intro h; exact F.magc_strictMono.injective (h.trans h0.symm)
  · rintro rfl; exact h0

/-- `toIEEE` on a variable that holds a number of the format, zero or infinity included, is exact. -/
theorem toIEEE_exact (F : Format) (hw2 : 2 ≤ F.w) (hw30 : F.w ≤ 30) {x : BigFloat} (hx : x.WF)
    {d : Datum} (hd : x.datum = d) :
    (∀ s, d = .inf s → x.toIEEE F.t F.w = (F.signPart s + F.infCode, .exact)) ∧
    (∀ s n, n < F.infCode → d = .num s (F.magc n) → x.toIEEE F.t F.w = (F.signPart s + n, .exact)) := by
  constructor
  · rintro s rfl
    cases hf : x.form with
    | zero => simp [BigFloat.datum, hf] at hd
    | finite => simp [BigFloat.datum, hf] at hd
    | inf =>
      simp [BigFloat.datum, hf] at hd
      rw [toIEEE_inf F hf, hd]
  · rintro s n hn rfl
    cases hf : x.form with
    | inf => simp [BigFloat.datum, hf] at hd
    | zero =>
      simp [BigFloat.datum, hf] at hd
      have : n = 0 := (magc_eq_zero F).1 hd.2.symm
      subst this
      rw [toIEEE_zero F hf, hd.1]; rfl
    | finite =>
      simp [BigFloat.datum, hf] at hd
      rw [toIEEE_of_magc F hw2 hw30 hx hf hn hd.2, hd.1]

/-- Converting a number of a smaller format to a larger one is exact. -/
theorem toIEEE_widen {F G : Format} (hw : 2 ≤ F.w) (hG : 2 ≤ G.w) (hG30 : G.w ≤ 30) (ht : F.t ≤ G.t)
    (hq : G.qmin ≤ F.qmin) (hb : F.bias ≤ G.bias) {x : BigFloat} (hx : x.WF) {c : ℕ} (hd : x.datum = F.decode c) :
    G.decode (x.toIEEE G.t G.w).1 = F.decode c ∧ (x.toIEEE G.t G.w).2 = .exact := by
  have hE := toIEEE_exact G hG hG30 hx hd
  rcases decode_cases F c with ⟨s, h⟩ | ⟨h, -⟩ | ⟨h, hn⟩
  · rw [h] at hd
    unfold BigFloat.datum at hd
    split at hd <;> cases hd
  · rw [hE.1 _ h, h]; exact ⟨G.decode_inf _, rfl⟩
  · obtain ⟨n', hn', hm⟩ := magc_widen hw hG ht hq hb hn
    rw [hE.2 _ n' hn' (by rw [h, hm]), h, ← hm]
    exact ⟨G.decode_code _ hn', rfl⟩

theorem isNaN64_iff (x : F64) : F64.isNaN x = true ↔ ∃ s, double.decode x.toNat = .nan s := by
  rw [decode_nan_iff]
  have h1 : double.t = 52 := rfl
  have h2 : double.w = 11 := rfl
  unfold F64.isNaN
  rw [h1, h2, decide_eq_true_eq]
  have := x.isLt
  omega

theorem isNaN32_iff (x : F32) : F32.isNaN x = true ↔ ∃ s, single.decode x.toNat = .nan s := by
  rw [decode_nan_iff]
  have h1 : single.t = 23 := rfl
  have h2 : single.w = 8 := rfl
  unfold F32.isNaN
  rw [h1, h2, decide_eq_true_eq]
  have := x.isLt
  omega

theorem decode_sign (F : Format) (c : ℕ) : (F.decode c).sign = decide (c / 2 ^ (F.t + F.w) % 2 = 1) := by
  unfold Format.decode
  simp only
  split
  · split <;> rfl
  · split <;> rfl

theorem signbit64_eq (x : F64) : F64.signbit x = (double.decode x.toNat).sign := by
  rw [decode_sign]
  unfold F64.signbit
  have h1 : double.t + double.w = 63 := rfl
  rw [h1, Bool.eq_iff_iff, beq_iff_eq, decide_eq_true_eq]
  have := x.isLt
  omega

/-- `big.NewFloat` of a number. -/
theorem newFloat_spec (x : F64) (h : F64.isNaN x = false) :
    ∃ y, newFloat x = .ok y ∧ y.datum = double.decode x.toNat ∧ y.WF ∧ y.prec = 53 ∧ y.mode = .toNearestEven ∧
      y.acc = .exact := by
  have hn : ¬ ∃ s, double.decode x.toNat = .nan s := by rw [← isNaN64_iff, h]; simp
  have hd := decodeIEEE_spec double (by decide) (by decide) (by decide) x.toNat hn
  refine ⟨_, ?_, hd⟩
  unfold newFloat; rw [h]; rfl

theorem single_double : 2 ≤ single.w ∧ 2 ≤ double.w ∧ double.w ≤ 30 ∧ single.t ≤ double.t ∧
    double.qmin ≤ single.qmin ∧ single.bias ≤ double.bias := by decide

/-- Go's `float64(x)` of a float32 keeps the value, and the sign of a NaN. -/
theorem f32to64_decode (x : F32) :
    (∀ s, single.decode x.toNat = .nan s → double.decode (f32to64 x).toNat = .nan s) ∧
    ((¬ ∃ s, single.decode x.toNat = .nan s) → double.decode (f32to64 x).toNat = single.decode x.toNat) := by
  constructor
  · intro s hs
    have hnan : F32.isNaN x = true := (isNaN32_iff x).2 ⟨s, hs⟩
    have hsg := decode_sign single x.toNat
    rw [hs] at hsg
    have hsg' : s = decide (x.toNat / 2 ^ 31 % 2 = 1) := hsg
    have hx := x.isLt
    have hor1 : x.toNat % 2 ^ 23 ||| 0x400000 < 2 ^ 23 := Nat.or_lt_two_pow (Nat.mod_lt _ (by norm_num)) (by norm_num)
    have hor2 : 0x400000 ≤ x.toNat % 2 ^ 23 ||| 0x400000 := Nat.right_le_or
    have hval : (f32to64 x).toNat =
        x.toNat / 2 ^ 31 * 2 ^ 63 + 0x7FF * 2 ^ 52 + (x.toNat % 2 ^ 23 ||| 0x400000) * 2 ^ 29 := by
      unfold f32to64
      rw [if_pos hnan, BitVec.toNat_ofNat]
      apply Nat.mod_eq_of_lt
      generalize (x.toNat % 2 ^ 23 ||| 0x400000) = m at *
      omega
    obtain ⟨s', hs'⟩ : ∃ s', double.decode (f32to64 x).toNat = .nan s' := by
      rw [decode_nan_iff, hval]
      have h1 : double.t = 52 := rfl
      have h2 : double.w = 11 := rfl
      rw [h1, h2]
      generalize (x.toNat % 2 ^ 23 ||| 0x400000) = m at *
      omega
    have hsg2 := decode_sign double (f32to64 x).toNat
    rw [hs'] at hsg2
    rw [hs']
    have : s' = decide ((f32to64 x).toNat / 2 ^ 63 % 2 = 1) := hsg2
    rw [this, hsg', hval]
    congr 2
    generalize (x.toNat % 2 ^ 23 ||| 0x400000) = m at *
    apply propext
    omega
  · intro hn
    have hnan : ¬ F32.isNaN x = true := by rw [isNaN32_iff]; exact hn
    obtain ⟨hd, hwf, -, -, -⟩ := decodeIEEE_spec single (by decide) (by decide) (by decide) x.toNat hn
    obtain ⟨a1, a2, a3, a4, a5, a6⟩ := single_double
    have hw := toIEEE_widen a1 a2 a3 a4 a5 a6 hwf hd
    have hlt := toIEEE_lt double a2 a3 hwf
    unfold f32to64
    rw [if_neg hnan, BitVec.toNat_ofNat]
    change double.decode ((BigFloat.toIEEE double.t double.w (decodeIEEE single.t single.w x.toNat)).1 % 2 ^ 64) = _
    rw [Nat.mod_eq_of_lt (show _ < 2 ^ 64 from hlt), hw.1]

/-- The exponent is determined by the binade of the magnitude. -/
theorem BigFloat.exp_of_mag {x : BigFloat} (hm : 0 < x.mant) {e : ℤ} (h1 : (2 : ℚ) ^ (e - 1) ≤ x.mag) (h2 : x.mag < 2 ^ e) :
    x.exp = e := by
  have h3 := BigFloat.mag_lt x
  have h4 := BigFloat.le_mag hm
  have h5 : (2 : ℚ) ^ (e - 1) < 2 ^ x.exp := h1.trans_lt h3
  have h6 : (2 : ℚ) ^ (x.exp - 1) < 2 ^ e := h4.trans_lt h2
  rw [zpow_lt_zpow_iff_right₀ (by norm_num)] at h5 h6
  omega

theorem BigFloat.exp_lt_of_mag {x : BigFloat} (hm : 0 < x.mant) {e : ℤ} (h2 : x.mag < 2 ^ e) : x.exp ≤ e := by
  have h6 : (2 : ℚ) ^ (x.exp - 1) < 2 ^ e := (BigFloat.le_mag hm).trans_lt h2
  rw [zpow_lt_zpow_iff_right₀ (by norm_num)] at h6
  omega

theorem BigFloat.exp_gt_of_mag {x : BigFloat} {e : ℤ} (h1 : (2 : ℚ) ^ e ≤ x.mag) : e < x.exp := by
  have h5 : (2 : ℚ) ^ e < 2 ^ x.exp := h1.trans_lt (BigFloat.mag_lt x)
  rwa [zpow_lt_zpow_iff_right₀ (by norm_num)] at h5

end GoFloat
