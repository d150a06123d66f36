import Verif.Model.Gen
import Verif.Props.Binary16
import Verif.Props.Binary128
import Verif.Props.Float
import Mathlib.Tactic.IntervalCases
/-
What the functions of the two programs gen.go compute.
-/
namespace GoFloat
open Spec

/-- A number with at most 53 bits and a moderate exponent is a double. -/
theorem double_of (s : Bool) {N : ℕ} {q : ℤ} (hN : N < 2 ^ 53) (h1 : -1074 ≤ q) (h2 : q ≤ 900) :
    ∃ v : F64, double.decode v.toNat = .num s ((N : ℚ) * 2 ^ q) := by
  have hlt : (N : ℚ) * 2 ^ q < 2 ^ (double.bias + 1) := by
    have h3 : (N : ℚ) < 2 ^ (53 : ℤ) := by exact_mod_cast hN
    calc (N : ℚ) * 2 ^ q < 2 ^ (53 : ℤ) * 2 ^ q := mul_lt_mul_of_pos_right h3 (by positivity)
      _ = 2 ^ (53 + q) := (zpow_add₀ (by norm_num) _ _).symm
      _ ≤ _ := zpow_le_zpow_right₀ (by norm_num) (by
        have : double.bias = 1023 := by decide
        omega)
  obtain ⟨n, hn, he⟩ := exists_code double (by decide) (q := q) hN (by
    have : double.qmin = -1074 := by decide
    omega) hlt
  have hn' : double.signPart s + n < 2 ^ 64 := by
    have h4 : double.signPart s ≤ 2 ^ 63 := by cases s <;> decide
    have h5 : double.infCode < 2 ^ 63 := double.infCode_lt
    omega
  refine ⟨BitVec.ofNat 64 (double.signPart s + n), ?_⟩
  rw [BitVec.toNat_ofNat, Nat.mod_eq_of_lt hn', double.decode_code s hn, he]

/-- `Float64` of such a number is exact. -/
theorem float64_dyadic {x : BigFloat} (hx : x.WF) {s : Bool} {N : ℕ} {q : ℤ} (hd : x.datum = .num s ((N : ℚ) * 2 ^ q))
    (hN : N < 2 ^ 53) (h1 : -1074 ≤ q) (h2 : q ≤ 900) :
    x.float64.2 = .exact ∧ double.decode x.float64.1.toNat = .num s ((N : ℚ) * 2 ^ q) := by
  obtain ⟨v, hv⟩ := double_of s hN h1 h2
  rw [float64_of hx hd hv]
  exact ⟨rfl, hv⟩

/-- Powers of two. -/
theorem powTwo_spec {k : ℤ} (h1 : -1000 ≤ k) (h2 : k ≤ 900) : double.decode (powTwo k).toNat = .num false (2 ^ k) := by
  unfold powTwo
  set x : BigFloat := { BigFloat.new with prec := 53, form := .finite, mant := 1, exp := k + 1 } with hx
  have hwf : x.WF := by
    refine ⟨show 53 ≤ BigFloat.MaxPrec by decide, fun _ => Nat.one_pos, fun _ => ?_, fun _ => ?_, fun _ => show 1 ≤ 53 by decide,
      fun _ => ⟨1, 0, rfl, show 1 < 2 ^ 53 by decide⟩⟩
    · show BigFloat.MinExp ≤ k + 1
      unfold BigFloat.MinExp; omega
    · show k + 1 ≤ BigFloat.MaxExp
      unfold BigFloat.MaxExp; omega
  have hd : x.datum = .num false (((1 : ℕ) : ℚ) * 2 ^ k) := by
    rw [BigFloat.datum_finite rfl, BigFloat.mag_eq]
    show Datum.num false (((1 : ℕ) : ℚ) * 2 ^ (k + 1 - ((1 : ℕ) : ℤ))) = _
    rw [Nat.cast_one, Nat.cast_one, add_sub_cancel_right]
  have := (float64_dyadic hwf hd (by norm_num) (by omega) h2).2
  rw [this, Nat.cast_one, one_mul]

theorem powMinusOne_spec {n : ℕ} (h : n < 2) : double.decode (powMinusOne n).toNat = .num (n = 1) 1 := by
  interval_cases n <;> · simp [powMinusOne, Format.decode, double, Format.bias]

/-- Products that are doubles are exact. -/
theorem f64mul_spec {x y : F64} {s t : Bool} {a b : ℚ} (hx : double.decode x.toNat = .num s a) (hy : double.decode y.toNat = .num t b)
    {N : ℕ} {q : ℤ} (hab : a * b = (N : ℚ) * 2 ^ q) (hN : N < 2 ^ 53) (h1 : -1074 ≤ q) (h2 : q ≤ 900) :
    double.decode (f64mul x y).toNat = .num (s != t) (a * b) := by
  have hxn : ¬ ∃ s, double.decode x.toNat = .nan s := by rw [hx]; simp
  have hyn : ¬ ∃ s, double.decode y.toNat = .nan s := by rw [hy]; simp
  obtain ⟨hdx, wx, px, -, -⟩ := decodeIEEE_spec double (by decide) (by decide) (by decide) x.toNat hxn
  obtain ⟨hdy, wy, py, -, -⟩ := decodeIEEE_spec double (by decide) (by decide) (by decide) y.toNat hyn
  unfold f64mul
  change (decodeIEEE 52 11 x.toNat).datum = _ at hdx
  change (decodeIEEE 52 11 y.toNat).datum = _ at hdy
  change (decodeIEEE 52 11 x.toNat).WF at wx
  change (decodeIEEE 52 11 y.toNat).WF at wy
  change (decodeIEEE 52 11 x.toNat).prec = 53 at px
  change (decodeIEEE 52 11 y.toNat).prec = 53 at py
  generalize decodeIEEE 52 11 x.toNat = A at *
  generalize decodeIEEE 52 11 y.toNat = B at *
  have hneg : A.neg = s ∧ (A.form = .finite ∧ A.mag = a ∨ A.form = .zero ∧ a = 0) := by
    rw [hx] at hdx
    unfold BigFloat.datum at hdx
    cases h : A.form <;> rw [h] at hdx <;> simp at hdx <;> simp [hdx]
  have hneg' : B.neg = t ∧ (B.form = .finite ∧ B.mag = b ∨ B.form = .zero ∧ b = 0) := by
    rw [hy] at hdy
    unfold BigFloat.datum at hdy
    cases h : B.form <;> rw [h] at hdy <;> simp at hdy <;> simp [hdy]
  obtain ⟨rfl, hA⟩ := hneg
  obtain ⟨rfl, hB⟩ := hneg'
  simp only
  by_cases hf : A.form = .finite ∧ B.form = .finite
  · rw [if_pos hf]
    obtain ⟨hfa, hfb⟩ := hf
    have ha : A.mag = a := by
      rcases hA with h | h
      · exact h.2
      · rw [hfa] at h; simp at h
    have hb : B.mag = b := by
      rcases hB with h | h
      · exact h.2
      · rw [hfb] at h; simp at h
    have hma := wx.mant_pos hfa
    have hmb := wy.mant_pos hfb
    set Z : BigFloat :=
      { BigFloat.new with prec := 106, form := .finite, neg := A.neg != B.neg, mant := A.mant * B.mant, exp := A.exp - bitLen A.mant + (B.exp - bitLen B.mant) + bitLen (A.mant * B.mant) } with hZ
    have hmag : Z.mag = a * b := by
      rw [BigFloat.mag_eq, ← ha, ← hb, BigFloat.mag_eq, BigFloat.mag_eq]
      show ((A.mant * B.mant : ℕ) : ℚ) * 2 ^ (A.exp - bitLen A.mant + (B.exp - bitLen B.mant) + bitLen (A.mant * B.mant) - bitLen (A.mant * B.mant)) = _
      rw [add_sub_cancel_right, zpow_add₀ (by norm_num)]
      push_cast
      ring
    have hmz : 0 < Z.mant := Nat.mul_pos hma hmb
    have hea := exp_double wx hfa hdx
    have heb := exp_double wy hfb hdy
    have hup : Z.exp ≤ A.exp + B.exp := by
      apply BigFloat.exp_lt_of_mag hmz
      rw [hmag, ← ha, ← hb, zpow_add₀ (by norm_num)]
      exact mul_lt_mul'' (BigFloat.mag_lt A) (BigFloat.mag_lt B) (BigFloat.mag_pos hma).le (BigFloat.mag_pos hmb).le
    have hlo : A.exp - 1 + (B.exp - 1) < Z.exp := by
      apply BigFloat.exp_gt_of_mag
      rw [hmag, ← ha, ← hb, zpow_add₀ (by norm_num)]
      exact mul_le_mul (BigFloat.le_mag hma) (BigFloat.le_mag hmb) (by positivity) (BigFloat.mag_pos hma).le
    have hwf : Z.WF := by
      refine ⟨show 106 ≤ BigFloat.MaxPrec by decide, fun _ => hmz, fun _ => ?_, fun _ => ?_, fun _ => show 1 ≤ 106 by decide, fun _ => ?_⟩
      · unfold BigFloat.MinExp; omega
      · unfold BigFloat.MaxExp; omega
      · obtain ⟨k, i, e1, l1⟩ := wx.fits hfa
        obtain ⟨k', i', e2, l2⟩ := wy.fits hfb
        rw [px] at l1
        rw [py] at l2
        refine ⟨k * k', i + i', ?_, ?_⟩
        · show A.mant * B.mant = _
          rw [e1, e2, pow_add]; ring
        · show k * k' < 2 ^ 106
          calc k * k' < 2 ^ 53 * 2 ^ 53 := Nat.mul_lt_mul'' l1 l2
            _ = _ := by norm_num
    have hd : Z.datum = .num (A.neg != B.neg) ((N : ℚ) * 2 ^ q) := by
      rw [BigFloat.datum_finite rfl, hmag, hab]
    rw [(float64_dyadic hwf hd hN h1 h2).2, hab]
  · rw [if_neg hf]
    have h0 : a * b = 0 := by
      rcases hA with h | h
      · rcases hB with h' | h'
        · exact absurd ⟨h.1, h'.1⟩ hf
        · rw [h'.2, mul_zero]
      · rw [h.2, zero_mul]
    rw [h0]
    cases A.neg <;> cases B.neg <;> simp [Format.decode, double, Format.bias, F64.negZero]

/-- Go's `float32(x)` of a double that holds a number of the smaller format. -/
theorem f64to32_of {x : F64} {s : Bool} {m : ℚ} (hx : double.decode x.toNat = .num s m) {v : F32}
    (hv : single.decode v.toNat = .num s m) : f64to32 x = v := by
  have hn : ¬ ∃ s, double.decode x.toNat = .nan s := by rw [hx]; simp
  have hnan : ¬ F64.isNaN x = true := by rw [isNaN64_iff]; exact hn
  obtain ⟨hd, hwf, -, -, -⟩ := decodeIEEE_spec double (by decide) (by decide) (by decide) x.toNat hn
  have := float32_of hwf (hd.trans hx) hv
  unfold f64to32
  rw [if_neg hnan]
  exact congrArg Prod.fst this

namespace Binary16.Gen

theorem rowBits_toNat {s e m : ℕ} (hs : s < 2) (he : e < 32) (hm : m < 1024) :
    (rowBits s e m).toNat = s * 2 ^ 15 + e * 2 ^ 10 + m := by
  unfold rowBits
  rw [BitVec.toNat_or, BitVec.toNat_or, BitVec.toNat_shiftLeft, BitVec.toNat_shiftLeft, BitVec.toNat_ofNat, BitVec.toNat_ofNat,
    BitVec.toNat_ofNat, Nat.shiftLeft_eq, Nat.shiftLeft_eq, Nat.mod_eq_of_lt (a := s) (by omega), Nat.mod_eq_of_lt (a := e) (by omega),
    Nat.mod_eq_of_lt (a := m) (by omega), Nat.mod_eq_of_lt (a := s * 2 ^ 15) (by omega), Nat.mod_eq_of_lt (a := e * 2 ^ 10) (by omega),
    nat_or_field (by omega), show s * 2 ^ 15 + e * 2 ^ 10 = (s * 2 ^ 5 + e) * 2 ^ 10 by ring, nat_or_field (by omega)]

theorem mantissa_spec {lead mant : ℕ} (hl : lead ≤ 1) (hm : mant < 1024) :
    ∃ x, mantissa lead mant = .ok x ∧ double.decode x.toNat = .num false (((lead * 2 ^ 10 + mant : ℕ) : ℚ) * 2 ^ (-10 : ℤ)) := by
  obtain ⟨fs, hf1, hf2, hf3, hf4⟩ := fmtBinPad_digits (w := 10) (n := mant) (by norm_num) hm
  have hsc := scanBinary_text false hl hf3 0
  have ht : text lead mant = (if false then ['-'] else ['+']) ++ ['0', 'b'] ++ fmtNat 10 lead ++ ['.'] ++ fs.map digitChar
      ++ ['p'] ++ fmtInt 0 := by
    unfold text
    rw [hf1, show fmtInt 0 = ['0'] by decide]
    simp
  rw [← ht, hf4, hf2] at hsc
  have hlt : lead * 2 ^ 10 + mant < 2 ^ 11 := by omega
  have hbl := bitLen_le_of_lt hlt
  generalize lead * 2 ^ 10 + mant = M at *
  have hp := parse_of_scan (x := (BigFloat.new.setPrec 53).setMode .toNearestEven) hsc (by decide)
    (lt_of_lt_of_le hlt (Nat.pow_le_pow_right (by norm_num) (by decide)))
    (by simp only [BigFloat.MinExp]; omega) (by simp only [BigFloat.MaxExp]; omega)
  simp only at hp
  unfold mantissa parseFloat
  rw [hp]
  simp only
  set y : BigFloat := if M = 0 then _ else _ with hy
  have hy2 : y.WF ∧ y.datum = .num false ((M : ℚ) * 2 ^ (-10 : ℤ)) := by
    by_cases h0 : M = 0
    · rw [hy, if_pos h0, h0]
      refine ⟨⟨by decide, ?_, ?_, ?_, ?_, ?_⟩, by simp [BigFloat.datum]⟩ <;> (intro h; simp at h)
    · rw [hy, if_neg h0]
      refine ⟨⟨by show 53 ≤ BigFloat.MaxPrec; decide, fun _ => Nat.pos_of_ne_zero h0, fun _ => ?_, fun _ => ?_,
        fun _ => by show 1 ≤ 53; decide, fun _ => ⟨M, 0, by simp, ?_⟩⟩, ?_⟩
      · simp only [BigFloat.MinExp]; omega
      · simp only [BigFloat.MaxExp]; omega
      · show M < 2 ^ 53
        omega
      · rw [BigFloat.datum_finite rfl, BigFloat.mag_eq]
        simp only
        congr 3
        push_cast
        ring
  have := float64_dyadic hy2.1 hy2.2 (by omega) (by norm_num) (by norm_num)
  rw [if_neg (by rw [this.1]; simp)]
  exact ⟨_, rfl, this.2⟩

/-- The product of a row. -/
theorem want_spec {s lead mant : ℕ} {k : ℤ} (hs : s < 2) (hl : lead ≤ 1) (hm : mant < 1024) (hk1 : -100 ≤ k) (hk2 : k ≤ 100) {x : F64}
    (hx : double.decode x.toNat = .num false (((lead * 2 ^ 10 + mant : ℕ) : ℚ) * 2 ^ (-10 : ℤ))) :
    double.decode (f64mul (f64mul (powMinusOne s) (powTwo k)) x).toNat
      = .num (s = 1) (2 ^ k * (((lead * 2 ^ 10 + mant : ℕ) : ℚ) * 2 ^ (-10 : ℤ))) := by
  have h1 := f64mul_spec (powMinusOne_spec hs) (powTwo_spec (k := k) (by omega) (by omega)) (N := 1) (q := k)
    (by simp) (by norm_num) (by omega) (by omega)
  have h2 := f64mul_spec h1 hx (N := lead * 2 ^ 10 + mant) (q := k - 10)
    (by rw [sub_eq_add_neg, zpow_add₀ (by norm_num) k]; ring) (by omega) (by omega) (by omega)
  rw [h2, one_mul]
  simp

end Binary16.Gen

end GoFloat
