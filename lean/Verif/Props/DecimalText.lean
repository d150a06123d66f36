import Verif.Proofs.Sample
import Verif.Proofs.TextSurvives
import Verif.Proofs.SplitMode
import Verif.Props.Binary16
import Verif.Props.Binary128
import Verif.Props.Float80x86
import Verif.Props.Bfloat
import Verif.Props.Complete
import Verif.Props.Float128ppcRoundTrip
/-
Property C98: how many digits of a decimal text bring a value back. The value leaves the package through `Big`, is printed with
`Text('g', n)`, read with `SetString` into a variable of the precision of the format, and comes back through `NewFromBig`.
-/
namespace GoFloat
open Spec

/-- A mode that rounds to the nearest number. -/
def ToNearest (mode : RoundingMode) : Prop := mode = .toNearestEven ∨ mode = .toNearestAway

theorem digits_enough {p n n₀ : ℕ} (h : n₀ ≤ n) (h0 : 16 * 2 ^ p ≤ 15 * 10 ^ (n₀ - 1)) : 16 * 2 ^ p ≤ 15 * 10 ^ (n - 1) :=
  h0.trans (Nat.mul_le_mul_left _ (Nat.pow_le_pow_right (by norm_num) (by omega)))

/-- A number of a format: its bits, its unit and its size. -/
theorem Spec.Format.number_form (F : Format) {c : ℕ} {s : Bool} {m : ℚ} (h : F.decode c = .num s m) :
    ∃ (N : ℕ) (a : ℤ), N < 2 ^ (F.t + 1) ∧ m = N * (2 : ℚ) ^ a ∧ F.qmin ≤ a ∧ a < F.qmin + 2 ^ F.w := by
  obtain ⟨n, hn, hm, -, -⟩ := F.code_of_decode h
  obtain ⟨k, N, hk, hN1, hN2⟩ := F.code_split n
  have h1 := F.magc_eq hN1.le hN2
  rw [← hk, ← hm] at h1
  refine ⟨N, F.qmin + k, hN1, h1, by omega, ?_⟩
  have h2 : k * 2 ^ F.t < 2 ^ F.w * 2 ^ F.t := by
    refine lt_of_le_of_lt ?_ (lt_of_lt_of_le hn ?_)
    · omega
    · unfold Format.infCode
      exact Nat.mul_le_mul_right _ (Nat.sub_le _ _)
  have h3 := Nat.lt_of_mul_lt_mul_right h2
  have h4 : (k : ℤ) < 2 ^ F.w := by exact_mod_cast h3
  omega

theorem small_of_form {N : ℕ} {p : ℕ} {a b : ℤ} (hN : N < 2 ^ p) (h : (p : ℤ) + a ≤ b) : (N : ℚ) * (2 : ℚ) ^ a < (2 : ℚ) ^ b := by
  have h1 : (N : ℚ) < 2 ^ p := by exact_mod_cast hN
  calc (N : ℚ) * (2 : ℚ) ^ a < 2 ^ p * (2 : ℚ) ^ a := mul_lt_mul_of_pos_right h1 (zpow_pos (by norm_num) _)
    _ = (2 : ℚ) ^ ((p : ℤ) + a) := by rw [zpow_add₀ (by norm_num), zpow_natCast]
    _ ≤ _ := zpow_le_zpow_right₀ (by norm_num) h

namespace Binary16

/-- C98, binary16: five digits. -/
theorem C98_binary16 (f : Float) {s : Bool} {m : ℚ} (h : half.decode f.bits.toNat = .num s m) {n : ℕ} (hn : 5 ≤ n) (z : BigFloat)
    (hz : z.prec = 11) (hz2 : ToNearest z.mode) : ∃ x w, f.big = .ok (x, false) ∧ z.setString (x.textG n) = some w ∧
    w.datum = .num s m ∧ newFromBig w = .ok (f, .exact) := by
  obtain ⟨x, nan, hb, -, -, -, hwf, hd⟩ := big_spec f
  rw [h] at hd
  obtain ⟨rfl, hd⟩ : nan = false ∧ x.datum = .num s m := hd
  obtain ⟨N, a, hN, hm, ha1, ha2⟩ := half.number_form h
  have e : half.qmin = -24 := by decide
  rw [e] at ha1 ha2
  rw [show half.t + 1 = 11 from rfl] at hN
  rw [show half.w = 5 from rfl] at ha2
  obtain ⟨w, w1, w2, w3, -⟩ := BigFloat.text_survives (z := z) hwf hd (by omega) (digits_enough hn (by rw [hz]; norm_num)) (by rw [hz]; exact hN) hm
    (by omega) (by rw [hm]; exact small_of_form hN (by norm_num at ha2 ⊢; omega)) (by omega) (by rw [hz]; decide) hz2
  exact ⟨x, w, hb, w1, w3, newFromBig_of_decode w2 (w3.trans h.symm)⟩

example := C98_binary16 ⟨0xBD80⟩ Sample.x_half (n := 5) (by norm_num) ⟨11, .toNearestAway, .exact, .zero, false, 0, 0⟩ rfl (.inr rfl)

/-- C98, binary16: four digits are too few: two values, both of which `Big` and `NewFromBig` carry, with the same text. -/
theorem C98_binary16_fewer : ∃ (f f' : Float) (x x' : BigFloat), f ≠ f' ∧ f.big = .ok (x, false) ∧ f'.big = .ok (x', false) ∧
    newFromBig x = .ok (f, .exact) ∧ newFromBig x' = .ok (f', .exact) ∧ x.textG 4 = x'.textG 4 :=
  ⟨⟨0x3C15⟩, ⟨0x3C16⟩, ⟨11, .toNearestEven, .exact, .finite, false, 1045, 1⟩, ⟨11, .toNearestEven, .exact, .finite, false, 1046, 1⟩, by decide +kernel, by decide +kernel, by decide +kernel,
    by decide +kernel, by decide +kernel, by decide +kernel⟩

-- the smallest number meets the hypotheses, and so does a variable that rounds half away from zero
example : half.decode (⟨0x0001⟩ : Float).bits.toNat = .num false ((2 : ℚ) ^ (-24 : ℤ)) ∧
    ToNearest (⟨11, .toNearestAway, .exact, .zero, false, 0, 0⟩ : BigFloat).mode := by
  refine ⟨?_, Or.inr rfl⟩
  show half.decode 1 = _
  norm_num [Format.decode, half, Format.bias]

end Binary16

namespace Bfloat

/-- C98, bfloat: four digits. The package has no `NewFromBig`; the number read is the one of the value. -/
theorem C98_bfloat (f : Float) {s : Bool} {m : ℚ} (h : brain.decode f.bits.toNat = .num s m) {n : ℕ} (hn : 4 ≤ n) (z : BigFloat)
    (hz : z.prec = 8) (hz2 : ToNearest z.mode) : ∃ x w, f.big = .ok (x, false) ∧ z.setString (x.textG n) = some w ∧
    w.datum = .num s m := by
  obtain ⟨x, nan, hb, -, -, -, hwf, hd⟩ := big_spec f
  rw [h] at hd
  obtain ⟨rfl, hd⟩ : nan = false ∧ x.datum = .num s m := hd
  obtain ⟨N, a, hN, hm, ha1, ha2⟩ := brain.number_form h
  have e : brain.qmin = -133 := by decide
  rw [e] at ha1 ha2
  rw [show brain.t + 1 = 8 from rfl] at hN
  rw [show brain.w = 8 from rfl] at ha2
  obtain ⟨w, w1, w2, w3, -⟩ := BigFloat.text_survives (z := z) hwf hd (by omega) (digits_enough hn (by rw [hz]; norm_num)) (by rw [hz]; exact hN) hm
    (by omega) (by rw [hm]; exact small_of_form hN (by norm_num at ha2 ⊢; omega)) (by omega) (by rw [hz]; decide) hz2
  exact ⟨x, w, hb, w1, w3⟩

example := C98_bfloat ⟨0xBFB0⟩ Sample.x_brain (n := 4) (by norm_num) ⟨8, .toNearestEven, .exact, .zero, false, 0, 0⟩ rfl (.inl rfl)

/-- C98, bfloat: three digits are too few. -/
theorem C98_bfloat_fewer : ∃ (f f' : Float) (x x' : BigFloat), f.big = .ok (x, false) ∧ f'.big = .ok (x', false) ∧ x.datum ≠ x'.datum ∧
    x.textG 3 = x'.textG 3 := by
  refine ⟨⟨0x3F82⟩, ⟨0x3F83⟩, ⟨8, .toNearestEven, .exact, .finite, false, 130, 1⟩, ⟨8, .toNearestEven, .exact, .finite, false, 131, 1⟩,
    by decide +kernel, by decide +kernel, ?_, by decide +kernel⟩
  rw [BigFloat.datum_lit 8 rfl (by decide), BigFloat.datum_lit 8 rfl (by decide)]
  norm_num

example : brain.decode (⟨0xC049⟩ : Float).bits.toNat = .num true (201 / 64) := by
  show brain.decode 0xC049 = _
  norm_num [Format.decode, brain, Format.bias]

end Bfloat

namespace Binary128

/-- C98, binary128: 36 digits. -/
theorem C98_binary128 (f : Float) {s : Bool} {m : ℚ} (h : quad.decode f.code = .num s m) {n : ℕ} (hn : 36 ≤ n) (z : BigFloat)
    (hz : z.prec = 113) (hz2 : ToNearest z.mode) : ∃ x w, f.big = .ok (x, false) ∧ z.setString (x.textG n) = some w ∧
    w.datum = .num s m ∧ newFromBig w = .ok (f, .exact) := by
  obtain ⟨x, nan, hb, -, -, -, hwf, hd⟩ := big_spec f
  rw [h] at hd
  obtain ⟨rfl, hd⟩ : nan = false ∧ x.datum = .num s m := hd
  obtain ⟨N, a, hN, hm, ha1, ha2⟩ := quad.number_form h
  have e : quad.qmin = -16494 := by decide
  rw [e] at ha1 ha2
  rw [show quad.t + 1 = 113 from rfl] at hN
  rw [show quad.w = 15 from rfl] at ha2
  obtain ⟨w, w1, w2, w3, -⟩ := BigFloat.text_survives (z := z) hwf hd (by omega) (digits_enough hn (by rw [hz]; norm_num)) (by rw [hz]; exact hN) hm
    (by omega) (by rw [hm]; exact small_of_form hN (by norm_num at ha2 ⊢; omega)) (by omega) (by rw [hz]; decide) hz2
  exact ⟨x, w, hb, w1, w3, newFromBig_of_decode w2 (w3.trans h.symm)⟩

example := C98_binary128 ⟨0xBFFF600000000000, 0⟩ Sample.x_quad (n := 36) (by norm_num) ⟨113, .toNearestEven, .exact, .zero, false, 0, 0⟩ rfl (.inl rfl)

/-- C98, binary128: 35 digits are too few: two values, both of which `Big` and `NewFromBig` carry, with the same text. -/
theorem C98_binary128_fewer : ∃ (f f' : Float) (x x' : BigFloat), f ≠ f' ∧ f.big = .ok (x, false) ∧ f'.big = .ok (x', false) ∧
    newFromBig x = .ok (f, .exact) ∧ newFromBig x' = .ok (f', .exact) ∧ x.textG 35 = x'.textG 35 :=
  ⟨⟨0x4008F40000000000, 35⟩, ⟨0x4008F40000000000, 36⟩, ⟨113, .toNearestEven, .exact, .finite, false, 10141204801825835211973625643008035, 10⟩, ⟨113, .toNearestEven, .exact, .finite, false, 10141204801825835211973625643008036, 10⟩, by decide +kernel, by decide +kernel, by decide +kernel,
    by decide +kernel, by decide +kernel, by decide +kernel⟩

-- 3/2 meets the hypothesis
example : quad.decode (⟨0x3FFF800000000000, 0⟩ : Float).code = .num false (3 / 2) := by
  have h : (⟨0x3FFF800000000000, 0⟩ : Float).code = 0x3FFF8000000000000000000000000000 := by decide +kernel
  rw [h]; simp [Format.decode, quad, Format.bias]; norm_num

end Binary128

namespace Float80x86

/-- C98, float80x86: 21 digits. -/
theorem C98_float80x86 (f : Float) (hc : f.Canonical) {s : Bool} {m : ℚ} (h : f.val = .num s m) {n : ℕ} (hn : 21 ≤ n) (z : BigFloat)
    (hz : z.prec = 64) (hz2 : ToNearest z.mode) : ∃ x w, f.big = .ok (x, false) ∧ z.setString (x.textG n) = some w ∧
    w.datum = .num s m ∧ newFromBig w = .ok (f, .exact) := by
  obtain ⟨x, nan, hb, -, -, -, hwf, hd⟩ := big_spec f
  rw [h] at hd
  obtain ⟨rfl, hd⟩ : nan = false ∧ x.datum = .num s m := hd
  obtain ⟨N, a, hN, hm, ha1, ha2⟩ := extended.number_form ((val_canonical hc).symm.trans h)
  have e : extended.qmin = -16445 := by decide
  rw [e] at ha1 ha2
  rw [show extended.t + 1 = 64 from rfl] at hN
  rw [show extended.w = 15 from rfl] at ha2
  obtain ⟨w, w1, w2, w3, -⟩ := BigFloat.text_survives (z := z) hwf hd (by omega) (digits_enough hn (by rw [hz]; norm_num)) (by rw [hz]; exact hN) hm
    (by omega) (by rw [hm]; exact small_of_form hN (by norm_num at ha2 ⊢; omega)) (by omega) (by rw [hz]; decide) hz2
  exact ⟨x, w, hb, w1, w3, newFromBig_of_val w2 hc (w3.trans h.symm)⟩

example := C98_float80x86 ⟨0xBFFF, 0xB000000000000000⟩ Sample.x_canonical Sample.x_val (n := 21) (by norm_num) ⟨64, .toNearestEven, .exact, .zero, false, 0, 0⟩ rfl (.inl rfl)

/-- C98, float80x86: twenty digits are too few: two values, both of which `Big` and `NewFromBig` carry, with the same text. -/
theorem C98_float80x86_fewer : ∃ (f f' : Float) (x x' : BigFloat), f ≠ f' ∧ f.big = .ok (x, false) ∧ f'.big = .ok (x', false) ∧
    newFromBig x = .ok (f, .exact) ∧ newFromBig x' = .ok (f', .exact) ∧ x.textG 20 = x'.textG 20 :=
  ⟨⟨0x4002, 0xA000000000000003⟩, ⟨0x4002, 0xA000000000000004⟩, ⟨64, .toNearestEven, .exact, .finite, false, 11529215046068469763, 4⟩, ⟨64, .toNearestEven, .exact, .finite, false, 11529215046068469764, 4⟩, by decide +kernel, by decide +kernel, by decide +kernel,
    by decide +kernel, by decide +kernel, by decide +kernel⟩

-- 10 meets the hypotheses
example : (⟨0x4002, 0xA000000000000000⟩ : Float).Canonical ∧ (⟨0x4002, 0xA000000000000000⟩ : Float).val = .num false 10 := by
  refine ⟨by unfold Float.Canonical Canonical80; decide +kernel, ?_⟩
  simp [Float.val, decode80]; norm_num

end Float80x86

namespace Float128ppc

/-- Two variables of at most 106 bits that hold the same number are split into the same pair. -/
theorem newFromBig_same {x y : BigFloat} (hx : x.WF) (hy : y.WF) (h : x.datum = y.datum) (hpx : x.prec ≤ 106) (hpy : y.prec ≤ 106)
    {f : Float} {acc : Accuracy} {x' : BigFloat} (hn : newFromBig x = .ok ((f, acc), x')) : ∃ y', newFromBig y = .ok ((f, acc), y') := by
  obtain ⟨h1, h2, h3⟩ := BigFloat.same_datum hx hy h
  cases hf : x.form with
  | zero =>
    rw [newFromBig_zero hf] at hn
    rw [newFromBig_zero (h2 ▸ hf), ← h1]
    simp only [Except.ok.injEq, Prod.mk.injEq] at hn
    exact ⟨y, by rw [hn.1.1, hn.1.2]⟩
  | inf =>
    rw [newFromBig_inf hf] at hn
    rw [newFromBig_inf (h2 ▸ hf), ← h1]
    simp only [Except.ok.injEq, Prod.mk.injEq] at hn
    exact ⟨y, by rw [hn.1.1, hn.1.2]⟩
  | finite =>
    have hg : y.form = .finite := h2 ▸ hf
    have hmag := (h3 hf).1
    obtain ⟨a1, a2⟩ := newFromBig_spec hx hf (Or.inr hpx)
    obtain ⟨b1, b2⟩ := newFromBig_spec hy hg (Or.inr hpy)
    rcases le_or_gt (double.overflowAt - 2 ^ (917 : ℤ)) x.mag with ho | ho
    · rw [a1 ho] at hn; cases hn
    obtain ⟨v, hi, lo, rh, c1, c2, c3, c4, c5, c6, c7, -⟩ := a2 ho
    obtain ⟨v', hi', lo', rh', d1, d2, d3, d4, d5, d6, d7, -⟩ := b2 (hmag ▸ ho)
    rw [c1] at hn
    simp only [Except.ok.injEq, Prod.mk.injEq] at hn
    obtain ⟨⟨rfl, rfl⟩, -⟩ := hn
    have hsv : x.sval = y.sval := by rw [BigFloat.sval_finite hf, BigFloat.sval_finite hg, h1, hmag]
    have hxm := BigFloat.mag_pos (hx.mant_pos hf)
    have hne : x.sval ≠ 0 := by
      intro h0
      have : |x.sval| = x.mag := by rw [BigFloat.sval_finite hf, BigFloat.signed_abs hxm.le]
      rw [h0, abs_zero] at this
      exact hxm.ne this
    rw [← hsv] at d2
    obtain rfl := RoundsToBits.unique (by norm_num) hne c2 d2
    rw [← h1] at d3 d5 d6 d7
    have e1 : hi = hi' := decode_inj64 (RoundsTo.unique (by decide) c5 d5) (by rw [c3]; simp)
    subst e1
    rw [c3] at d3
    injection d3 with _ e2
    subst e2
    have e3 : lo = lo' := by
      by_cases h0 : v - signed x.neg rh = 0
      · rw [c6 h0, d6 h0]
      · have c8 := c7 h0
        refine decode_inj64 (RoundsTo.unique (by decide) c8 (d7 h0)) ?_
        intro s hs
        unfold Format.RoundsTo at c8
        split at c8
        · rw [hs] at c8; cases c8
        · obtain ⟨r, hr, -⟩ := c8
          rw [hs] at hr; cases hr
    subst e3
    exact ⟨_, d1⟩

/-- A canonical pair as a number of 106 bits. -/
theorem canonical_form {f : Float} {s₁ s₂ : Bool} {m₁ m₂ : ℚ} (h1 : double.decode f.high.toNat = .num s₁ m₁)
    (h2 : double.decode f.low.toNat = .num s₂ m₂) {k e : ℤ} (hk : |k| < 2 ^ 106) (hv : signed s₁ m₁ + signed s₂ m₂ = k * (2 : ℚ) ^ e) :
    ∃ (N : ℕ) (a : ℤ), N < 2 ^ 106 ∧ |signed s₁ m₁ + signed s₂ m₂| = N * (2 : ℚ) ^ a ∧ -1074 ≤ a := by
  obtain ⟨K, hK⟩ := sum_multiple h1 h2
  have hN : k.natAbs < 2 ^ 106 := by
    have : (k.natAbs : ℤ) < 2 ^ 106 := by rw [Int.natCast_natAbs]; exact hk
    exact_mod_cast this
  have habs : ∀ (j b : ℤ), |(j : ℚ) * (2 : ℚ) ^ b| = (j.natAbs : ℚ) * (2 : ℚ) ^ b := by
    intro j b
    rw [abs_mul, abs_of_pos (zpow_pos (by norm_num : (0 : ℚ) < 2) b), Nat.cast_natAbs, Int.cast_abs]
  rcases le_or_gt (-1074) e with he | he
  · exact ⟨k.natAbs, e, hN, by rw [hv, habs], he⟩
  · refine ⟨K.natAbs, -1074, ?_, by rw [hK, habs], le_refl _⟩
    obtain ⟨j, hj⟩ : ∃ j : ℕ, e = -1074 - j := ⟨(-1074 - e).toNat, by omega⟩
    have h3 : k = K * 2 ^ j := by
      have h4 : (k : ℚ) * (2 : ℚ) ^ e = K * (2 : ℚ) ^ (-1074 : ℤ) := by rw [← hv, hK]
      rw [hj, zpow_sub₀ (by norm_num), zpow_natCast, mul_div_assoc', div_eq_iff (by positivity)] at h4
      have h5 : (k : ℚ) = K * 2 ^ j :=
        mul_right_cancel₀ (zpow_pos (by norm_num : (0 : ℚ) < 2) (-1074)).ne' (by rw [h4]; ring)
      exact_mod_cast h5
    have h6 : K.natAbs ≤ k.natAbs := by
      rw [h3, Int.natAbs_mul]
      exact Nat.le_mul_of_pos_right _ (Int.natAbs_pos.2 (by positivity))
    omega

/-- C98, float128ppc: 33 digits, for the pairs that `Big` and `NewFromBig` carry at all (C62). -/
theorem C98_float128ppc (f : Float) (hc : Canonical f) (hl : f.low ≠ 0x8000000000000000) {n : ℕ} (hn : 33 ≤ n) (z : BigFloat)
    (hz : z.prec = 106) (hz2 : ToNearest z.mode) : ∃ x w w', f.big = .ok (x, false) ∧ z.setString (x.textG n) = some w ∧
    w.datum = x.datum ∧ newFromBig w = .ok ((f, .exact), w') := by
  obtain ⟨x, x', hb, hr⟩ := C32_partial f hc
  rw [if_neg hl] at hr
  obtain ⟨s₁, m₁, s₂, m₂, h1, h2, -, -, k, e, hk, hv⟩ := hc
  obtain ⟨y, s, m, hy, hd, hsum, -⟩ := C27_float128ppc_exact f h1 h2 hk hv
  obtain ⟨y', nan, hb', hs⟩ := C27_partial f (by intro s; rw [h1]; simp)
  rw [h1, h2] at hs
  obtain ⟨rfl, hp, -, hwf, -⟩ := hs
  rw [hb] at hb' hy
  simp only [Except.ok.injEq, Prod.mk.injEq, and_true] at hb' hy
  subst hy hb'
  obtain ⟨N, a, hN, hm, ha⟩ := canonical_form h1 h2 hk hv
  have hm0 : 0 ≤ m := by
    by_cases h0 : m = 0
    · rw [h0]
    · obtain ⟨hf, hmg⟩ := (BigFloat.datum_inj_form hwf hd).2.2 h0
      rw [← hmg]
      exact (BigFloat.mag_pos (hwf.mant_pos hf)).le
  have hms : m = |signed s₁ m₁ + signed s₂ m₂| := by rw [← hsum, BigFloat.signed_abs hm0]
  obtain ⟨N1, e1, u1⟩ := double_multiple h1
  obtain ⟨N2, e2, u2⟩ := double_multiple h2
  have p1 : 0 ≤ m₁ := by rw [e1]; exact mul_nonneg (Nat.cast_nonneg _) (zpow_pos (by norm_num) _).le
  have p2 : 0 ≤ m₂ := by rw [e2]; exact mul_nonneg (Nat.cast_nonneg _) (zpow_pos (by norm_num) _).le
  have hlt : m < (2 : ℚ) ^ (20000 : ℤ) := by
    have t1 := abs_add_le (signed s₁ m₁) (signed s₂ m₂)
    rw [← hms, BigFloat.signed_abs p1, BigFloat.signed_abs p2] at t1
    have t2 : (2 : ℚ) ^ (1024 : ℤ) + 2 ^ (1024 : ℤ) = 2 ^ (1025 : ℤ) := by
      rw [show (1025 : ℤ) = 1024 + 1 by norm_num, zpow_add_one₀ (by norm_num)]; ring
    have t3 : (2 : ℚ) ^ (1025 : ℤ) ≤ 2 ^ (20000 : ℤ) := zpow_le_zpow_right₀ (by norm_num) (by norm_num)
    rw [← t2] at t3
    clear e1 e2 t2 hN
    generalize (2 : ℚ) ^ (1024 : ℤ) = A at *
    generalize (2 : ℚ) ^ (20000 : ℤ) = B at *
    linarith
  obtain ⟨w, w1, w2, w3, w4, -⟩ := BigFloat.text_survives (z := z) hwf hd (by omega) (digits_enough hn (by rw [hz]; norm_num)) (by rw [hz]; exact hN)
    (hms.trans hm) (by omega) hlt (by omega) (by rw [hz]; decide) hz2
  obtain ⟨w', hw'⟩ := newFromBig_same hwf w2 (hd.trans w3.symm) hp.le (by omega) hr
  exact ⟨x, w, w', hb, w1, w3.trans hd.symm, hw'⟩

/-- C98, float128ppc: 32 digits are too few: two values, both of which `Big` and `NewFromBig` carry, with the same text. -/
theorem C98_float128ppc_fewer : ∃ (f f' : Float) (x x' : BigFloat), f ≠ f' ∧ f.big = .ok (x, false) ∧ f'.big = .ok (x', false) ∧
    (∃ y, newFromBig x = .ok ((f, .exact), y)) ∧ (∃ y, newFromBig x' = .ok ((f', .exact), y)) ∧ x.textG 32 = x'.textG 32 :=
  ⟨⟨0x3FF0000000000000, 0x3960000000000000⟩, ⟨0x3FF0000000000000, 0x3970000000000000⟩, ⟨106, .toNearestEven, .exact, .finite, false, 40564819207303340847894502572033, 1⟩, ⟨106, .toNearestEven, .exact, .finite, false, 40564819207303340847894502572034, 1⟩, by decide +kernel, by decide +kernel, by decide +kernel,
    ⟨⟨106, .toNearestEven, .exact, .finite, false, 40564819207303340847894502572033, 1⟩, by decide +kernel⟩, ⟨⟨106, .toNearestEven, .exact, .finite, false, 40564819207303340847894502572034, 1⟩, by decide +kernel⟩, by decide +kernel⟩

-- (1, 0) meets the hypotheses
example : Canonical ⟨0x3FF0000000000000, 0⟩ ∧ (⟨0x3FF0000000000000, 0⟩ : Float).low ≠ 0x8000000000000000 :=
  ⟨canonical_low_zero 0 false (roundsTo_zero double (by decide) false).1, by decide⟩

end Float128ppc
end GoFloat
