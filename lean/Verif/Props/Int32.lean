import Verif.Props.IntSize
import Verif.Props.Binary128
/-
C82: package binary128 on machines with a 32-bit `int`, where `Exp` is 0 for every number.

`Float.bigI W`, `float32I W`, `float64I W` and `newFromFloat32I W` are the functions with an `int` of `W` bits
(Verif/Model/IntSize.lean).
-/
namespace GoFloat
open Spec

/-- A number below half the smallest positive one of the format rounds to zero. -/
theorem roundsTo_tiny {F : Format} (hw : 2 ≤ F.w) {s : Bool} {m : ℚ} {c : ℕ} (h : F.RoundsTo s m c) (h0 : 0 ≤ m) (h1 : 2 * m < (2 : ℚ) ^ F.qmin)
    (h2 : m < F.overflowAt) : F.decode c = .num s 0 := by
  unfold Format.RoundsTo at h
  rw [if_neg (not_le.2 h2)] at h
  obtain ⟨r, hr, hn, -⟩ := h
  obtain ⟨n, -, h4, -, -⟩ := F.code_of_decode hr
  have hz : F.magc 0 = 0 := by
    have := F.magc_eq (k := 0) (N := 0) (Nat.zero_le _) (Or.inl rfl)
    simpa using this
  have hone : F.magc 1 = (2 : ℚ) ^ F.qmin := by
    have := F.magc_eq (k := 0) (N := 1) Nat.one_le_two_pow (Or.inl rfl)
    simpa using this
  have hi : 0 < F.infCode := by
    unfold Format.infCode
    have : 2 ^ 2 ≤ 2 ^ F.w := Nat.pow_le_pow_right (by norm_num) hw
    exact Nat.mul_pos (by omega) (Nat.two_pow_pos _)
  have h5 := hn _ false 0 (by rw [F.decode_code false hi, hz])
  have h6 : |m - r| ≤ m := by
    have e1 : |signed s m - signed s r| = |m - r| := by
      cases s
      · rfl
      · show |-m - -r| = _; rw [← abs_neg]; congr 1; ring
    have e2 : |signed s m - signed false 0| = m := by
      cases s
      · show |m - 0| = _; rw [sub_zero, abs_of_nonneg h0]
      · show |-m - 0| = _; rw [sub_zero, abs_neg, abs_of_nonneg h0]
    rwa [e1, e2] at h5
  have h7 := (abs_le.1 h6).1
  rw [hr]
  rcases Nat.eq_zero_or_pos n with hn0 | hn0
  · rw [h4, hn0, hz]
  · have := F.magc_strictMono.monotone hn0
    change F.magc 1 ≤ _ at this
    rw [hone, ← h4] at this
    linarith

/-- The accuracy of a zero as the result for a number with the same sign. -/
theorem accuracyTrue_zero {acc : Accuracy} {s : Bool} {m : ℚ} (h0 : 0 ≤ m) (h : AccuracyTrue acc (.num s 0) (.num s m)) :
    acc = if m = 0 then .exact else if s then .above else .below := by
  obtain ⟨a, b, ha, hb, h⟩ := h
  obtain rfl := Option.some.inj ha
  obtain rfl := Option.some.inj hb
  unfold keyLt at h
  by_cases hm : m = 0
  · rw [if_pos hm]; subst hm
    cases acc <;> simp at h ⊢
  · rw [if_neg hm]
    have : 0 < m := lt_of_le_of_ne h0 (Ne.symm hm)
    cases s <;> cases acc <;> simp [signed] at h ⊢ <;> linarith

namespace Binary128

/-- `f` with its exponent field cleared. -/
def Float.noExp (f : Float) : Float := ⟨f.a &&& 0x8000FFFFFFFFFFFF, f.b⟩

theorem noExp_signbit (f : Float) : f.noExp.signbit = f.signbit := by
  unfold Float.noExp Float.signbit
  rw [BitVec.and_assoc]; rfl

theorem noExp_frac (f : Float) : f.noExp.frac = f.frac := by
  unfold Float.noExp Float.frac
  simp only [BitVec.and_assoc]; rfl

theorem noExp_exp (f : Float) : f.noExp.exp = 0 := by
  unfold Float.noExp Float.exp Float.expW
  simp only [BitVec.and_assoc]
  rw [show ((0x8000FFFFFFFFFFFF : BitVec 64) &&& 0x7FFF000000000000) = 0#64 from rfl, BitVec.and_zero]
  decide

theorem noExp_code (f : Float) : f.noExp.code = quad.signPart f.signbit + f.code % 2 ^ 112 := by
  have h1 := frac_eq f.noExp
  rw [noExp_frac, frac_eq] at h1
  have h2 := signbit_eq f.noExp
  rw [noExp_signbit] at h2
  have h3 := exp_eq f.noExp
  rw [noExp_exp] at h3
  have h4 := code_lt128 f.noExp
  unfold Format.signPart
  rw [h2, h1]
  simp only [decide_eq_true_eq, quad]
  split <;> omega

/-- The number that a 32-bit machine takes `f` for. -/
theorem noExp_decode (f : Float) : quad.decode f.noExp.code = .num f.signbit ((f.code % 2 ^ 112 : ℕ) * (2 : ℚ) ^ (-16494 : ℤ)) := by
  have h : f.code % 2 ^ 112 < 2 ^ 112 := Nat.mod_lt _ (Nat.two_pow_pos _)
  have hi : (2 : ℕ) ^ 112 ≤ quad.infCode := by decide +kernel
  rw [noExp_code, quad.decode_code _ (h.trans_le hi)]
  congr 1
  have := quad.magc_eq (k := 0) (N := f.code % 2 ^ 112) (h.le.trans (by decide +kernel)) (Or.inl rfl)
  simp only [Nat.zero_mul, Nat.zero_add] at this
  rw [this, quad_facts.1]; rfl

theorem bigI_32 (f : Float) : f.bigI 32 = f.noExp.big := by
  unfold Float.bigI Float.big
  rw [C13_int32, noExp_exp, bigWith_eq, bigWith_eq, noExp_frac, noExp_signbit]

theorem float64I_32 (f : Float) : f.float64I 32 = f.noExp.float64 := by
  unfold Float.float64I Float.float64
  rw [bigI_32]

theorem float32I_32 (f : Float) : f.float32I 32 = f.noExp.float32 := by
  unfold Float.float32I Float.float32
  rw [bigI_32]

/-- C82: with a 64-bit `int` the functions are those of the other properties. -/
theorem C82_int64 (f : Float) (x : F32) : f.bigI 64 = f.big ∧ f.float64I 64 = f.float64 ∧ f.float32I 64 = f.float32 ∧
    newFromFloat32I 64 x = newFromFloat32 x := by
  refine ⟨rfl, rfl, rfl, ?_⟩
  unfold newFromFloat32I newFromFloat32
  rw [C78_binary128_float64 (Or.inr rfl)]
  rfl

/-- C82: with a 32-bit `int`, `Big` takes every encoding, also those of infinities and NaNs, for a subnormal number: it returns the fraction bits times
2^-16494, exactly. -/
theorem C82_big (f : Float) : ∃ x, f.bigI 32 = .ok (x, false) ∧ x.prec = 113 ∧ x.mode = .toNearestEven ∧ x.acc = .exact ∧ x.WF ∧
    x.datum = .num f.signbit ((f.code % 2 ^ 112 : ℕ) * (2 : ℚ) ^ (-16494 : ℤ)) := by
  obtain ⟨x, nan, h1, h2, h3, h4, h5, h6⟩ := big_spec f.noExp
  rw [noExp_decode] at h6
  refine ⟨x, ?_, h2, h3, h4, h5, h6.2⟩
  rw [bigI_32, h1, h6.1]

/-- C82: it is right exactly for the zeros and the subnormal numbers. -/
theorem C82_big_iff (f : Float) : (∃ x nan, f.bigI 32 = .ok (x, nan) ∧ Decoded (quad.decode f.code) x nan) ↔ f.code / 2 ^ 112 % 2 ^ 15 = 0 := by
  obtain ⟨x, h1, -, -, -, -, h2⟩ := C82_big f
  constructor
  · rintro ⟨y, nan, h3, h4⟩
    rw [h1] at h3
    obtain ⟨rfl, rfl⟩ : x = y ∧ false = nan := by simpa using h3
    by_contra hE
    have hT : ((f.code % 2 ^ 112 : ℕ) : ℚ) < 2 ^ 112 := by exact_mod_cast Nat.mod_lt f.code (Nat.two_pow_pos 112)
    rcases decode_cases quad f.code with ⟨s, h5⟩ | ⟨h5, -⟩ | ⟨h5, h6⟩
    · rw [h5] at h4; simp [Decoded] at h4
    · rw [h5] at h4; simp [Decoded, h2] at h4
    · rw [h5] at h4
      have h7 := h4.2
      rw [h2, Datum.num.injEq] at h7
      have hw : quad.t + quad.w = 127 := rfl
      rw [hw] at h7 h6
      have hge : 2 ^ 112 ≤ f.code % 2 ^ 127 := by omega
      have hm := quad.magc_strictMono.monotone hge
      have := quad.magc_eq (k := 0) (N := 2 ^ 112) (by decide +kernel) (Or.inl rfl)
      simp only [Nat.zero_mul, Nat.zero_add] at this
      rw [this, quad_facts.1, ← h7.2] at hm
      have hp : (0 : ℚ) < 2 ^ (-16494 + ((0 : ℕ) : ℤ)) := zpow_pos (by norm_num) _
      have hm := le_of_mul_le_mul_right hm hp
      rw [Nat.cast_pow] at hm
      exact absurd hT (not_lt.2 hm)
  · intro hE
    have : f.noExp = f := by
      apply code_inj
      rw [noExp_code, signbit_eq]
      have := code_lt128 f
      unfold Format.signPart
      simp only [decide_eq_true_eq, quad]
      split <;> omega
    obtain ⟨y, nan, h3, -, -, -, -, h4⟩ := big_spec f
    exact ⟨y, nan, by rw [bigI_32, this, h3], h4⟩

theorem tiny_bound (f : Float) {e : ℤ} (he : -16381 ≤ e) :
    2 * ((f.code % 2 ^ 112 : ℕ) * (2 : ℚ) ^ (-16494 : ℤ)) < (2 : ℚ) ^ e := by
  have hT : ((f.code % 2 ^ 112 : ℕ) : ℚ) < 2 ^ 112 := by exact_mod_cast Nat.mod_lt f.code (Nat.two_pow_pos 112)
  have hp : (0 : ℚ) < 2 ^ (-16494 : ℤ) := zpow_pos (by norm_num) _
  have h1 := mul_lt_mul_of_pos_right hT hp
  have h2 : (2 : ℚ) ^ 112 * 2 ^ (-16494 : ℤ) = 2 ^ (-16382 : ℤ) := by
    rw [← zpow_natCast, ← zpow_add₀ (by norm_num)]; rfl
  rw [h2] at h1
  have h3 : (2 : ℚ) * 2 ^ (-16382 : ℤ) = 2 ^ (-16381 : ℤ) := by
    rw [← zpow_one_add₀ (by norm_num)]; rfl
  calc _ < 2 * (2 : ℚ) ^ (-16382 : ℤ) := mul_lt_mul_of_pos_left h1 (by norm_num)
    _ = _ := h3
    _ ≤ _ := zpow_le_zpow_right₀ (by norm_num) he

theorem tiny_overflow (f : Float) {F : Format} (hb : 0 ≤ F.bias) : (f.code % 2 ^ 112 : ℕ) * (2 : ℚ) ^ (-16494 : ℤ) < F.overflowAt := by
  have h1 := tiny_bound f (e := 0) (by norm_num)
  have h0 : (0 : ℚ) ≤ (f.code % 2 ^ 112 : ℕ) * (2 : ℚ) ^ (-16494 : ℤ) := mul_nonneg (Nat.cast_nonneg _) (zpow_nonneg (by norm_num) _)
  have h2 : (1 : ℚ) ≤ 2 ^ F.bias := one_le_zpow₀ (by norm_num) hb
  have h3 : (1 : ℚ) / 2 ^ (F.t + 1) ≤ 1 := by
    rw [div_le_one (by positivity)]
    exact one_le_pow₀ (by norm_num)
  unfold Format.overflowAt
  rw [zpow_zero] at h1
  calc _ < (1 : ℚ) := by linarith
    _ ≤ 2 ^ F.bias * 1 := by rw [mul_one]; exact h2
    _ ≤ _ := mul_le_mul_of_nonneg_left (by linarith) (by positivity)

theorem fraction_zero (f : Float) : (f.code % 2 ^ 112 : ℕ) * (2 : ℚ) ^ (-16494 : ℤ) = 0 ↔ f.code % 2 ^ 112 = 0 := by
  have hp : (2 : ℚ) ^ (-16494 : ℤ) ≠ 0 := zpow_ne_zero _ (by norm_num)
  rw [mul_eq_zero, or_iff_left hp, Nat.cast_eq_zero]

/-- C82: with a 32-bit `int`, `Float64` returns a zero for every number, infinity and NaN, reported as exact if the fraction bits are zero. -/
theorem C82_float64 (f : Float) : f.float64I 32 = .ok (if f.signbit then 0x8000000000000000 else 0,
    if f.code % 2 ^ 112 = 0 then .exact else if f.signbit then .above else .below) := by
  obtain ⟨r, acc, h1, h2⟩ := C17_binary128_float64 f.noExp
  rw [noExp_decode] at h2
  have h0 : (0 : ℚ) ≤ (f.code % 2 ^ 112 : ℕ) * (2 : ℚ) ^ (-16494 : ℤ) := mul_nonneg (Nat.cast_nonneg _) (zpow_nonneg (by norm_num) _)
  have h3 := roundsTo_tiny (by decide) h2.1 h0 (tiny_bound f (by decide)) (tiny_overflow f (by decide))
  have h4 := h2.2
  rw [h3] at h4
  have h5 := accuracyTrue_zero h0 h4
  simp only [fraction_zero] at h5
  rw [float64I_32, h1, h5]
  congr 2
  apply decode_inj64
  · rw [h3]
    have := double.decode_code f.signbit (n := 0) (by decide +kernel)
    rw [show (if f.signbit then 0x8000000000000000 else 0 : F64).toNat = double.signPart f.signbit + 0 by cases f.signbit <;> rfl, this]
    simp [Format.magc]
  · rw [h3]; simp

/-- C82: `Float32`, likewise. -/
theorem C82_float32 (f : Float) : f.float32I 32 = .ok (if f.signbit then 0x80000000 else 0,
    if f.code % 2 ^ 112 = 0 then .exact else if f.signbit then .above else .below) := by
  obtain ⟨r, acc, h1, h2⟩ := C17_binary128_float32 f.noExp
  rw [noExp_decode] at h2
  have h0 : (0 : ℚ) ≤ (f.code % 2 ^ 112 : ℕ) * (2 : ℚ) ^ (-16494 : ℤ) := mul_nonneg (Nat.cast_nonneg _) (zpow_nonneg (by norm_num) _)
  have h3 := roundsTo_tiny (by decide) h2.1 h0 (tiny_bound f (by decide)) (tiny_overflow f (by decide))
  have h4 := h2.2
  rw [h3] at h4
  have h5 := accuracyTrue_zero h0 h4
  simp only [fraction_zero] at h5
  rw [float32I_32, h1, h5]
  congr 2
  apply decode_inj32
  · rw [h3]
    have := single.decode_code f.signbit (n := 0) (by decide +kernel)
    rw [show (if f.signbit then 0x80000000 else 0 : F32).toNat = single.signPart f.signbit + 0 by cases f.signbit <;> rfl, this]
    simp [Format.magc]
  · rw [h3]; simp

/-- C82: with a 32-bit `int`, `NewFromBig(f.Big())` is `f` with its exponent field cleared. -/
theorem C82_roundtrip (f : Float) : ∃ x g, f.bigI 32 = .ok (x, false) ∧ newFromBigI 32 x = .ok (g, .exact) ∧
    g.code = (if f.signbit then 2 ^ 127 else 0) + f.code % 2 ^ 112 := by
  obtain ⟨x, h1, -, -, -, hwf, h2⟩ := C82_big f
  refine ⟨x, f.noExp, h1, ?_, noExp_code f⟩
  rw [← noExp_decode] at h2
  have h3 := newFromBig_of_decode hwf h2
  rw [C78_binary128_big (Or.inl rfl) hwf, h3]
  intro _ hf
  by_contra hlt
  have h4 : x.datum = .num x.neg x.mag := by unfold BigFloat.datum; rw [hf]
  rw [h2, noExp_decode, Datum.num.injEq] at h4
  have h5 := BigFloat.le_mag (hwf.mant_pos hf)
  have h6 := tiny_bound f (e := 0) (by norm_num)
  rw [h4.2] at h6
  have h7 : (1 : ℚ) ≤ 2 ^ (x.exp - 1) := one_le_zpow₀ (by norm_num) (by omega)
  rw [zpow_zero] at h6
  linarith

/-- C82: with a 32-bit `int`, `NewFromFloat32` makes the same number as with a 64-bit one, but the accuracy that it reports is wrong (the
conversion is always exact) unless the fraction bits are zero. -/
theorem C82_newFromFloat32 (x : F32) : ∃ f, newFromFloat32 x = .ok (f, .exact) ∧
    newFromFloat32I 32 x = .ok (f, if f.code % 2 ^ 112 = 0 then .exact else if f.signbit then .above else .below) := by
  have key : ∀ f, newFromFloat64 (f32to64 x) = .ok (f, .exact) →
      newFromFloat32I 32 x = .ok (f, if f.code % 2 ^ 112 = 0 then .exact else if f.signbit then .above else .below) := by
    intro f hf
    unfold newFromFloat32I
    rw [C78_binary128_float64 (Or.inl rfl), hf]
    simp only [bind, Except.bind, pure, Except.pure, C82_float32, if_true]
  by_cases hn : ∃ s, single.decode x.toNat = .nan s
  · obtain ⟨s, hs⟩ := hn
    have h1 := (f32to64_decode x).1 s hs
    have h2 := newFromFloat64_nan ((isNaN64_iff _).2 ⟨s, h1⟩)
    rw [h1] at h2
    exact ⟨_, newFromFloat32_nan hs, key _ h2⟩
  · push Not at hn
    obtain ⟨f, h1, h2, -⟩ := newFromFloat32_spec hn
    have hw := (f32to64_decode x).2 (by push Not; exact hn)
    obtain ⟨g, h3, h4⟩ := newFromFloat64_spec (x := f32to64 x) (by rw [hw]; exact hn)
    have : f = g := decode_inj (by rw [h2, h4, hw]) (by rw [h2]; exact hn)
    exact ⟨f, h1, this ▸ key _ h3⟩

theorem fraction_power {f : Float} {s : Bool} {m : ℚ} (h : quad.decode f.code = .num s m) (hm : m = 0 ∨ (2 : ℚ) ^ (-16382 : ℤ) ≤ m) :
    f.code % 2 ^ 112 = 0 ↔ m = 0 ∨ ∃ k : ℤ, m = (2 : ℚ) ^ k := by
  have hT : ((f.code % 2 ^ 112 : ℕ) : ℚ) < 2 ^ 112 := by exact_mod_cast Nat.mod_lt f.code (Nat.two_pow_pos 112)
  have hT0 : (0 : ℚ) ≤ ((f.code % 2 ^ 112 : ℕ) : ℚ) := Nat.cast_nonneg _
  have hc : ((f.code % 2 ^ 112 : ℕ) : ℚ) = 0 ↔ f.code % 2 ^ 112 = 0 := Nat.cast_eq_zero
  have hP : (0 : ℚ) < 2 ^ 112 := pow_pos (by norm_num) _
  unfold Format.decode at h
  simp only [show quad.t = 112 from rfl, show quad.w = 15 from rfl, show quad.bias = 16383 from rfl] at h
  rw [← hc]
  generalize ((f.code % 2 ^ 112 : ℕ) : ℚ) = T at *
  split at h
  · split at h <;> cases h
  · split at h
    · obtain ⟨-, rfl⟩ := Datum.num.inj h
      have e1 : (2 : ℚ) ^ (1 - 16383 : ℤ) = 2 ^ (-16382 : ℤ) := rfl
      rw [e1] at hm ⊢
      have hp : (0 : ℚ) < 2 ^ (-16382 : ℤ) := zpow_pos (by norm_num) _
      have h1 : T / 2 ^ 112 < 1 := by rw [div_lt_one hP]; exact hT
      have h2 := mul_lt_mul_of_pos_left h1 hp
      rw [mul_one] at h2
      have h3 := hm.resolve_right (not_le.2 h2)
      refine ⟨fun _ => Or.inl h3, fun _ => ?_⟩
      rcases mul_eq_zero.1 h3 with h4 | h4
      · exact absurd h4 hp.ne'
      · exact (div_eq_zero_iff.1 h4).resolve_right hP.ne'
    · obtain ⟨-, rfl⟩ := Datum.num.inj h
      generalize ((f.code / 2 ^ 112 % 2 ^ 15 : ℕ) : ℤ) - 16383 = e at *
      have hp : (0 : ℚ) < 2 ^ e := zpow_pos (by norm_num) _
      have h0 : 0 ≤ T / 2 ^ 112 := div_nonneg hT0 hP.le
      have h1 : T / 2 ^ 112 < 1 := by rw [div_lt_one hP]; exact hT
      constructor
      · intro h; right; exact ⟨e, by rw [h, zero_div, add_zero, mul_one]⟩
      · rintro (h2 | ⟨k, h2⟩)
        · rcases mul_eq_zero.1 h2 with h3 | h3
          · exact absurd h3 hp.ne'
          · linarith
        · have h3 : e ≤ k := by
            rw [← zpow_le_zpow_iff_right₀ (show (1 : ℚ) < 2 by norm_num), ← h2]
            exact le_mul_of_one_le_right hp.le (by linarith)
          have h4 : k < e + 1 := by
            rw [← zpow_lt_zpow_iff_right₀ (show (1 : ℚ) < 2 by norm_num), ← h2, zpow_add_one₀ (by norm_num)]
            exact mul_lt_mul_of_pos_left (by linarith) hp
          have h5 : k = e := by omega
          rw [h5] at h2
          have h6 := mul_left_cancel₀ hp.ne' (h2.trans (mul_one _).symm)
          have h7 : T / 2 ^ 112 = 0 := by linarith
          exact (div_eq_zero_iff.1 h7).resolve_right hP.ne'

/-- C82: seen from the argument, the accuracy is right for zeros, infinities and powers of two, and wrong for all other numbers and for NaNs. -/
theorem C82_newFromFloat32_accuracy (x : F32) : ∃ f acc, newFromFloat32I 32 x = .ok (f, acc) ∧
    (acc = .exact ↔ (∃ s, single.decode x.toNat = .inf s) ∨ ∃ s m, single.decode x.toNat = .num s m ∧ (m = 0 ∨ ∃ k : ℤ, m = (2 : ℚ) ^ k)) := by
  obtain ⟨f, h1, h2⟩ := C82_newFromFloat32 x
  refine ⟨_, _, h2, ?_⟩
  have he : (if f.code % 2 ^ 112 = 0 then Accuracy.exact else if f.signbit then .above else .below) = .exact ↔ f.code % 2 ^ 112 = 0 := by
    generalize f.code % 2 ^ 112 = T
    split
    · simp [*]
    · cases f.signbit <;> simp [*]
  rw [he]
  rcases decode_cases single x.toNat with ⟨s, h5⟩ | ⟨h5, -⟩ | ⟨h5, -⟩
  · have h3 := (C12_binary128_float32 x s).2.2 h5
    rw [h1] at h3
    have h4 : f = if s then NegNaN else NaN := by simpa using h3
    rw [h5, h4]
    cases s <;> simp <;> decide +kernel
  · have h3 := (C12_binary128_float32 x _).2.1 h5
    rw [h1] at h3
    have h4 : f = if decide (x.toNat / 2 ^ (single.t + single.w) % 2 = 1) then NegInf else Inf := by simpa using h3
    rw [h5, h4]
    simp only [Datum.inf.injEq, exists_eq', true_or, iff_true]
    split <;> decide +kernel
  · obtain ⟨n, h6, h7, -⟩ := single.code_of_decode h5
    obtain ⟨g, h3, h4, -⟩ := newFromFloat32_spec (x := x) (by rw [h5]; simp)
    rw [h1] at h3
    obtain rfl : f = g := by simpa using h3
    rw [h5] at h4
    rw [fraction_power h4, h5]
    · simp
    · rcases Nat.eq_zero_or_pos n with hn | hn
      · left; rw [h7, hn]; simp [Format.magc]
      · right
        rw [h7]
        refine le_trans ?_ (single.magc_strictMono.monotone hn)
        have := single.magc_eq (k := 0) (N := 1) Nat.one_le_two_pow (Or.inl rfl)
        simp only [Nat.zero_mul, Nat.zero_add, Nat.cast_one, one_mul] at this
        show _ ≤ single.magc 1
        rw [this]
        exact zpow_le_zpow_right₀ (by norm_num) (by decide)

-- 3/2 is exact, but reported below; 1, a NaN and an infinity as float64
example : newFromFloat32 0x3FC00000 = .ok (⟨0x3FFF800000000000, 0⟩, .exact) ∧
    newFromFloat32I 32 0x3FC00000 = .ok (⟨0x3FFF800000000000, 0⟩, .below) := by decide +kernel
example : (⟨0x3FFF000000000000, 0⟩ : Float).float64I 32 = .ok (0, .exact) ∧ NaN.float64I 32 = .ok (0, .below) ∧
    NegInf.float64I 32 = .ok (0x8000000000000000, .exact) := by decide +kernel
-- the smallest subnormal is right, the smallest normal number is not
example : (⟨0, 1⟩ : Float).code / 2 ^ 112 % 2 ^ 15 = 0 ∧ (⟨0x0001000000000000, 0⟩ : Float).code / 2 ^ 112 % 2 ^ 15 ≠ 0 := by decide +kernel

end Binary128
end GoFloat
