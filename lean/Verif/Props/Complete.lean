import Verif.Proofs.Sample
import Verif.Props.Binary16
import Verif.Props.Binary128
import Verif.Props.Float80x86
import Verif.Spec.Bits
import Verif.Proofs.BigAdd
import Verif.Proofs.Widen
/-
What the constructors from big.Float, float64 and float32 return for every number (C55 of properties.jsonl).
-/
namespace GoFloat
open Spec

/-- The exponent of a nonzero number. -/
theorem BigFloat.of_num {x : BigFloat} (hx : x.WF) {s : Bool} {m : ℚ} {e : ℤ} (hd : x.datum = .num s m)
    (h1 : (2 : ℚ) ^ (e - 1) ≤ m) (h2 : m < (2 : ℚ) ^ e) : x.form = .finite ∧ x.neg = s ∧ x.mag = m ∧ x.exp = e := by
  obtain ⟨hneg, -, hfin⟩ := BigFloat.datum_inj_form hx hd
  have h0 : (0 : ℚ) < (2 : ℚ) ^ (e - 1) := by positivity
  obtain ⟨hf, hmag⟩ := hfin (by intro h; rw [h] at h1; exact absurd h1 (not_le.2 h0))
  exact ⟨hf, hneg, hmag, BigFloat.exp_of_mag (hx.mant_pos hf) (by rw [hmag]; exact h1) (by rw [hmag]; exact h2)⟩

/-- Variables of the same value: both zero, both infinite, or finite with equal magnitude and exponent. -/
theorem BigFloat.same_datum {x y : BigFloat} (hx : x.WF) (hy : y.WF) (h : x.datum = y.datum) :
    x.neg = y.neg ∧ x.form = y.form ∧ (x.form = .finite → x.mag = y.mag ∧ x.exp = y.exp) := by
  have hp : ∀ z : BigFloat, z.WF → z.form = .finite → 0 < z.mag := fun z hz hf => BigFloat.mag_pos (hz.mant_pos hf)
  unfold BigFloat.datum at h
  cases hfx : x.form <;> cases hfy : y.form <;> rw [hfx, hfy] at h <;> simp only [Datum.num.injEq, Datum.inf.injEq, reduceCtorEq] at h
  · exact ⟨h.1, rfl, fun h => by simp at h⟩
  · exact absurd h.2 (hp y hy hfy).ne
  · exact absurd h.2 (hp x hx hfx).ne'
  · refine ⟨h.1, rfl, fun _ => ⟨h.2, ?_⟩⟩
    exact BigFloat.exp_of_mag (hx.mant_pos hfx) (by rw [h.2]; exact BigFloat.le_mag (hy.mant_pos hfy))
      (by rw [h.2]; exact BigFloat.mag_lt y)
  · exact ⟨h, rfl, fun h => by simp at h⟩

namespace Binary16

/-- C55: what `binary16.NewFromBig` returns for every number of magnitude `m` in `[2^(e-1), 2^e)`. Up to 2^-24 it is a residue of the
leading bits, up to 2^-14 the number of units of 2^-24, truncated, and otherwise the truncated mantissa with the exponent
modulo 32. -/
theorem C55_binary16_big (x : BigFloat) (hx : x.WF) {s : Bool} {m : ℚ} {e : ℤ} (hd : x.datum = .num s m)
    (h1 : (2 : ℚ) ^ (e - 1) ≤ m) (h2 : m < (2 : ℚ) ^ e) :
    ∃ f acc, newFromBig x = .ok (f, acc) ∧
      (e ≤ -24 → (f.bits.toNat : ℤ) = (if s then 2 ^ 15 else 0) + ⌊m * 2 ^ (20 - e)⌋ % 2 ^ 11 ∧ acc = .below) ∧
      (-24 < e → e ≤ -14 → (f.bits.toNat : ℤ) = (if s then 2 ^ 15 else 0) + ⌊m * 2 ^ (24 : ℤ)⌋ ∧ acc = .exact) ∧
      (-14 < e → (f.bits.toNat : ℤ) = (if s then 2 ^ 15 else 0) + (e + 14) % 2 ^ 5 * 2 ^ 10 + (⌊m * 2 ^ (11 - e)⌋ - 2 ^ 10) ∧
        acc = if (⌊m * 2 ^ (11 - e)⌋ : ℚ) = m * 2 ^ (11 - e) then (if 18 ≤ e then .above else .exact) else .below) := by
  obtain ⟨hf, rfl, rfl, rfl⟩ := BigFloat.of_num hx hd h1 h2
  obtain ⟨b, acc, hr, a1, a2, a3⟩ := newFromBig_finite hx hf
  have hs : (half.signPart x.neg : ℤ) = if x.neg then 2 ^ 15 else 0 := by unfold Format.signPart half; cases x.neg <;> rfl
  rw [hs] at a1 a2 a3
  refine ⟨⟨b⟩, acc, hr, fun h => ?_, fun h h' => ?_, fun h => ?_⟩
  · exact a2 (by omega)
  · exact a1 (by omega) (by omega)
  · obtain ⟨b1, b2⟩ := a3 (by omega)
    refine ⟨b1, ?_⟩
    rw [b2]
    by_cases hc : 18 ≤ x.exp
    · rw [if_pos hc, if_pos (by omega : 32 ≤ x.exp + 14)]
    · rw [if_neg hc, if_neg (by omega : ¬ 32 ≤ x.exp + 14)]

example := C55_binary16_big Sample.y Sample.y_wf Sample.y_datum (e := 1) (by norm_num) (by norm_num)

/-- C55: `binary16.NewFromBig` depends on the value of its argument only, not on its precision, rounding mode, accuracy or
representation. -/
theorem C55_binary16_value (x y : BigFloat) (hx : x.WF) (hy : y.WF) (h : x.datum = y.datum) : newFromBig x = newFromBig y := by
  obtain ⟨h1, h2, h3⟩ := BigFloat.same_datum hx hy h
  cases hf : x.form with
  | zero => rw [newFromBig_zero hf, newFromBig_zero (h2 ▸ hf), h1]
  | inf => rw [newFromBig_inf hf, newFromBig_inf (h2 ▸ hf), h1]
  | finite =>
    obtain ⟨hm, he⟩ := h3 hf
    obtain ⟨b, acc, hr, a1, a2, a3⟩ := newFromBig_finite hx hf
    obtain ⟨b', acc', hr', a1', a2', a3'⟩ := newFromBig_finite hy (h2 ▸ hf)
    rw [h1, hm, he] at a1 a2 a3
    have key : (b.toNat : ℤ) = b'.toNat ∧ acc = acc' := by
      rcases lt_or_ge (-10) (y.exp + 14) with c1 | c1
      · rcases le_or_gt (y.exp + 14) 0 with c2 | c2
        · exact ⟨(a1 c1 c2).1.trans (a1' c1 c2).1.symm, (a1 c1 c2).2.trans (a1' c1 c2).2.symm⟩
        · exact ⟨(a3 c2).1.trans (a3' c2).1.symm, (a3 c2).2.trans (a3' c2).2.symm⟩
      · exact ⟨(a2 c1).1.trans (a2' c1).1.symm, (a2 c1).2.trans (a2' c1).2.symm⟩
    rw [hr, hr', key.2, BitVec.eq_of_toNat_eq (by exact_mod_cast key.1 : b.toNat = b'.toNat)]

-- -11/8 in two precisions
example := C55_binary16_value Sample.x ⟨4, .toZero, .below, .finite, true, 22, 1⟩ Sample.x_wf
  ⟨by decide, by decide, by decide, by decide, by decide, fun _ => ⟨11, 1, by decide, by decide⟩⟩
  (by rw [Sample.x_datum, BigFloat.datum_lit 5 rfl (by decide)]; norm_num)

/-- C55: `binary16.NewFromFloat64` rounds its argument to 11 significant bits, to nearest even and without limits on the exponent,
and hands it to `NewFromBig`. -/
theorem C55_binary16_float64 (x : F64) {s : Bool} {m : ℚ} (hd : double.decode x.toNat = .num s m) (hm : m ≠ 0) :
    ∃ (z : BigFloat) (r : ℚ), newFromFloat64 x = newFromBig z ∧ z.WF ∧ z.datum = .num s r ∧ RoundsToBits 11 (signed s m) (signed s r) := by
  have hnn : F64.isNaN x = false := by
    rw [Bool.eq_false_iff, Ne, isNaN64_iff, hd]; simp
  obtain ⟨y, hwf, hyd, hp, hmo, he⟩ := newFromFloat64_eq hnn
  rw [hd] at hyd
  obtain ⟨hneg, -, hfin⟩ := BigFloat.datum_inj_form hwf hyd
  obtain ⟨hf, hmag⟩ := hfin hm
  have hexp := exp_double hwf hf (c := x.toNat) (by rw [hd, hyd])
  obtain ⟨z1, z2, z3, z4, z5, z6, z6', z7⟩ := BigFloat.setPrec_spec hwf hf hmo (p := 11) (by norm_num) (by omega)
    (by unfold BigFloat.MaxExp; omega)
  have hpos : 0 < m := by rw [← hmag]; exact BigFloat.mag_pos (hwf.mant_pos hf)
  have hzw : ((y.setPrec 11).setMode .toNearestEven).WF :=
    ⟨z2.prec_le, z2.mant_pos, z2.exp_ge, z2.exp_le, z2.prec_pos, z2.fits⟩
  refine ⟨(y.setPrec 11).setMode .toNearestEven, (y.setPrec 11).mag, he, hzw, ?_, ?_⟩
  · have h := BigFloat.datum_finite (x := (y.setPrec 11).setMode .toNearestEven) (by exact z1)
    rw [h, ← hneg, ← z3]; rfl
  · have hsg : signed s (y.setPrec 11).mag = (y.setPrec 11).sval := by
      rw [BigFloat.sval_finite z1, z3, hneg]
    have habs : |signed s m| = m := BigFloat.signed_abs hpos.le
    have hR : BigFloat.RoundedTo (y.setPrec 11) (signed s m) (y.setPrec 11) := by
      refine ⟨rfl, rfl, z2, z1, ?_, y.exp, ?_, ?_, ?_, ?_, ?_⟩
      · rw [z3, hneg, Bool.eq_iff_iff, decide_eq_true_iff, BigFloat.signed_neg_iff hpos]
      · rw [habs, ← hmag]; exact BigFloat.le_mag (hwf.mant_pos hf)
      · rw [habs, ← hmag]; exact BigFloat.mag_lt y
      · rw [habs, ← hmag, z4]; exact z6
      · rcases z7 with h | h
        · exact Or.inl h
        · exact Or.inr h.1
      · rw [habs, ← hmag, z3]; exact z6'
    have h := BigFloat.RoundedTo.spec (by rw [z4]; norm_num) hR
    rw [z4] at h
    rw [hsg]; exact h

example := C55_binary16_float64 0xBFF6000000000000 Sample.x_double (by norm_num)

/-- C55: `binary16.NewFromFloat32` is `NewFromFloat64` of the same number. -/
theorem C55_binary16_float32 (x : F32) : newFromFloat32 x = newFromFloat64 (f32to64 x) := by
  obtain ⟨f, acc, h, -⟩ := C11_binary16_float64 (f32to64 x)
  rw [newFromFloat32_fst h, h]

-- The hypotheses hold for 1.5 * 2^16, which is the NaN 0x7E00 reported exact (e = 17), and for a number below 2^-24.
example : midOverflow.datum = .num false 98304 ∧ (2 : ℚ) ^ ((17 : ℤ) - 1) ≤ 98304 ∧ (98304 : ℚ) < 2 ^ (17 : ℤ) :=
  ⟨midOverflow_datum, by norm_num, by norm_num⟩
example : tiny.datum = .num false ((2 : ℚ) ^ (-25 : ℤ) * (1 + 1 / 1024)) ∧ (2 : ℚ) ^ ((-24 : ℤ) - 1) ≤ (2 : ℚ) ^ (-25 : ℤ) * (1 + 1 / 1024) ∧
    (2 : ℚ) ^ (-25 : ℤ) * (1 + 1 / 1024) < 2 ^ (-24 : ℤ) := ⟨tiny_datum, by norm_num, by norm_num⟩
-- Variables of equal value that differ in precision, mode and representation.
example : midOverflow.datum = (⟨200, .toZero, .below, .finite, false, 3 * 2 ^ 100, 17⟩ : BigFloat).datum := by
  rw [midOverflow_datum, BigFloat.datum_lit 102 rfl (by decide +kernel)]; norm_num

end Binary16

namespace Binary128

/-- C55: what `binary128.NewFromBig` returns for every number of magnitude `m` in `[2^(e-1), 2^e)`. -/
theorem C55_binary128_big (x : BigFloat) (hx : x.WF) {s : Bool} {m : ℚ} {e : ℤ} (hd : x.datum = .num s m)
    (h1 : (2 : ℚ) ^ (e - 1) ≤ m) (h2 : m < (2 : ℚ) ^ e) :
    ∃ f acc, newFromBig x = .ok (f, acc) ∧
      (e ≤ -16494 → (f.code : ℤ) = (if s then 2 ^ 127 else 0) + ⌊m * 2 ^ (224 - e)⌋ % 2 ^ 112 ∧ acc = .below) ∧
      (-16494 < e → e ≤ -16382 → (f.code : ℤ) = (if s then 2 ^ 127 else 0) + ⌊m * 2 ^ (16494 : ℤ)⌋ ∧ acc = .exact) ∧
      (-16382 < e →
        (f.code : ℤ) = (if s then 2 ^ 127 else 0) + (e + 16382) % 2 ^ 15 * 2 ^ 112 + (⌊m * 2 ^ (113 - e)⌋ - 2 ^ 112) ∧
        acc = if (⌊m * 2 ^ (113 - e)⌋ : ℚ) = m * 2 ^ (113 - e) then (if 16386 ≤ e then .above else .exact) else .below) := by
  obtain ⟨hf, rfl, rfl, rfl⟩ := BigFloat.of_num hx hd h1 h2
  obtain ⟨f, acc, hr, a1, a2, a3⟩ := newFromBig_finite hx hf
  have hs : (quad.signPart x.neg : ℤ) = if x.neg then 2 ^ 127 else 0 := by unfold Format.signPart quad; cases x.neg <;> rfl
  rw [hs] at a1 a2 a3
  refine ⟨f, acc, hr, fun h => ?_, fun h h' => ?_, fun h => ?_⟩
  · exact a2 (by omega)
  · exact a1 (by omega) (by omega)
  · obtain ⟨b1, b2⟩ := a3 (by omega)
    refine ⟨b1, ?_⟩
    rw [b2]
    by_cases hc : 16386 ≤ x.exp
    · rw [if_pos hc, if_pos (by norm_num; omega : (2 : ℤ) ^ 15 ≤ x.exp + 16382)]
    · rw [if_neg hc, if_neg (by norm_num; omega : ¬ (2 : ℤ) ^ 15 ≤ x.exp + 16382)]

example := C55_binary128_big Sample.y Sample.y_wf Sample.y_datum (e := 1) (by norm_num) (by norm_num)

/-- C55: `binary128.NewFromBig` depends on the value of its argument only. -/
theorem C55_binary128_value (x y : BigFloat) (hx : x.WF) (hy : y.WF) (h : x.datum = y.datum) : newFromBig x = newFromBig y := by
  obtain ⟨h1, h2, h3⟩ := BigFloat.same_datum hx hy h
  cases hf : x.form with
  | zero => rw [newFromBig_zero hf, newFromBig_zero (h2 ▸ hf), h1]
  | inf => rw [newFromBig_inf hf, newFromBig_inf (h2 ▸ hf), h1]
  | finite =>
    obtain ⟨hm, he⟩ := h3 hf
    obtain ⟨f, acc, hr, a1, a2, a3⟩ := newFromBig_finite hx hf
    obtain ⟨f', acc', hr', a1', a2', a3'⟩ := newFromBig_finite hy (h2 ▸ hf)
    rw [h1, hm, he] at a1 a2 a3
    have key : (f.code : ℤ) = f'.code ∧ acc = acc' := by
      rcases lt_or_ge (-112) (y.exp + 16382) with c1 | c1
      · rcases le_or_gt (y.exp + 16382) 0 with c2 | c2
        · exact ⟨(a1 c1 c2).1.trans (a1' c1 c2).1.symm, (a1 c1 c2).2.trans (a1' c1 c2).2.symm⟩
        · exact ⟨(a3 c2).1.trans (a3' c2).1.symm, (a3 c2).2.trans (a3' c2).2.symm⟩
      · exact ⟨(a2 c1).1.trans (a2' c1).1.symm, (a2 c1).2.trans (a2' c1).2.symm⟩
    rw [hr, hr', key.2, code_inj (by exact_mod_cast key.1 : f.code = f'.code)]

-- -11/8 in two precisions
example := C55_binary128_value Sample.x ⟨4, .toZero, .below, .finite, true, 22, 1⟩ Sample.x_wf
  ⟨by decide, by decide, by decide, by decide, by decide, fun _ => ⟨11, 1, by decide, by decide⟩⟩
  (by rw [Sample.x_datum, BigFloat.datum_lit 5 rfl (by decide)]; norm_num)

end Binary128

namespace Float80x86

/-- C55: what `float80x86.NewFromBig` returns for every number of magnitude `m` in `[2^(e-1), 2^e)`. Below 2^-16445 the
significand is 0x7FFFFFFFFFFFFFFF. -/
theorem C55_float80x86_big (x : BigFloat) (hx : x.WF) {s : Bool} {m : ℚ} {e : ℤ} (hd : x.datum = .num s m)
    (h1 : (2 : ℚ) ^ (e - 1) ≤ m) (h2 : m < (2 : ℚ) ^ e) :
    ∃ f acc, newFromBig x = .ok (f, acc) ∧
      (e ≤ -16445 → (f.se.toNat : ℤ) = (if s then 2 ^ 15 else 0) ∧ f.m.toNat = 2 ^ 63 - 1 ∧ acc = .below) ∧
      (-16445 < e → e ≤ -16382 →
        (f.se.toNat : ℤ) = (if s then 2 ^ 15 else 0) ∧ (f.m.toNat : ℤ) = ⌊m * 2 ^ (16445 : ℤ)⌋ ∧ acc = .exact) ∧
      (-16382 < e →
        (f.se.toNat : ℤ) = (if s then 2 ^ 15 else 0) + (e + 16382) % 2 ^ 15 ∧ (f.m.toNat : ℤ) = ⌊m * 2 ^ (64 - e)⌋ ∧
        acc = if (⌊m * 2 ^ (64 - e)⌋ : ℚ) = m * 2 ^ (64 - e) then (if 16386 ≤ e then .above else .exact) else .below) := by
  obtain ⟨hf, rfl, rfl, rfl⟩ := BigFloat.of_num hx hd h1 h2
  obtain ⟨f, acc, hr, a1, a2, a3⟩ := newFromBig_finite hx hf
  have hs : (if x.neg then 1 else 0) * 2 ^ 15 = if x.neg then 2 ^ 15 else 0 := by cases x.neg <;> rfl
  have hs' : ((if x.neg then 1 else 0) * 2 ^ 15 : ℤ) = if x.neg then 2 ^ 15 else 0 := by cases x.neg <;> rfl
  rw [hs] at a1 a2
  rw [hs'] at a3
  refine ⟨f, acc, hr, fun h => ?_, fun h h' => ?_, fun h => ?_⟩
  · obtain ⟨b1, b2, b3⟩ := a2 (by omega)
    exact ⟨by rw [b1]; push_cast; rfl, by rw [b2]; rfl, b3⟩
  · obtain ⟨b1, b2, -, b3⟩ := a1 (by omega) (by omega)
    exact ⟨by rw [b1]; push_cast; rfl, b2, b3⟩
  · obtain ⟨b1, b2, -, b3⟩ := a3 (by omega)
    refine ⟨b1, b2, ?_⟩
    rw [b3]
    by_cases hc : 16386 ≤ x.exp
    · rw [if_pos hc, if_pos (by norm_num; omega : (2 : ℤ) ^ 15 ≤ x.exp + 16382)]
    · rw [if_neg hc, if_neg (by norm_num; omega : ¬ (2 : ℤ) ^ 15 ≤ x.exp + 16382)]

example := C55_float80x86_big Sample.y Sample.y_wf Sample.y_datum (e := 1) (by norm_num) (by norm_num)

/-- C55: `float80x86.NewFromBig` depends on the value of its argument only. -/
theorem C55_float80x86_value (x y : BigFloat) (hx : x.WF) (hy : y.WF) (h : x.datum = y.datum) : newFromBig x = newFromBig y := by
  obtain ⟨h1, h2, h3⟩ := BigFloat.same_datum hx hy h
  cases hf : x.form with
  | zero => rw [newFromBig_zero hf, newFromBig_zero (h2 ▸ hf), h1]
  | inf => rw [newFromBig_inf hf, newFromBig_inf (h2 ▸ hf), h1]
  | finite =>
    obtain ⟨hm, he⟩ := h3 hf
    obtain ⟨f, acc, hr, a1, a2, a3⟩ := newFromBig_finite hx hf
    obtain ⟨f', acc', hr', a1', a2', a3'⟩ := newFromBig_finite hy (h2 ▸ hf)
    rw [h1, hm, he] at a1 a3
    rw [h1, he] at a2
    have key : (f.se.toNat : ℤ) = f'.se.toNat ∧ (f.m.toNat : ℤ) = f'.m.toNat ∧ acc = acc' := by
      rcases lt_or_ge (-63) (y.exp + 16382) with c1 | c1
      · rcases le_or_gt (y.exp + 16382) 0 with c2 | c2
        · obtain ⟨b1, b2, -, b3⟩ := a1 c1 c2
          obtain ⟨b1', b2', -, b3'⟩ := a1' c1 c2
          exact ⟨by rw [b1, b1'], b2.trans b2'.symm, b3.trans b3'.symm⟩
        · obtain ⟨b1, b2, -, b3⟩ := a3 c2
          obtain ⟨b1', b2', -, b3'⟩ := a3' c2
          exact ⟨b1.trans b1'.symm, b2.trans b2'.symm, b3.trans b3'.symm⟩
      · obtain ⟨b1, b2, b3⟩ := a2 c1
        obtain ⟨b1', b2', b3'⟩ := a2' c1
        exact ⟨by rw [b1, b1'], by rw [b2, b2'], b3.trans b3'.symm⟩
    obtain ⟨k1, k2, k3⟩ := key
    rw [hr, hr', k3]
    rcases f with ⟨se, mm⟩
    rcases f' with ⟨se', mm'⟩
    simp only at k1 k2
    rw [BitVec.eq_of_toNat_eq (by exact_mod_cast k1 : se.toNat = se'.toNat), BitVec.eq_of_toNat_eq (by exact_mod_cast k2 : mm.toNat = mm'.toNat)]

-- -11/8 in two precisions
example := C55_float80x86_value Sample.x ⟨4, .toZero, .below, .finite, true, 22, 1⟩ Sample.x_wf
  ⟨by decide, by decide, by decide, by decide, by decide, fun _ => ⟨11, 1, by decide, by decide⟩⟩
  (by rw [Sample.x_datum, BigFloat.datum_lit 5 rfl (by decide)]; norm_num)

end Float80x86
end GoFloat
