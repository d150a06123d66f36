import Verif.Proofs.Sample
import Verif.Props.Ftoa
/-
FormatFloat with a fixed precision, internal/strconv/ftoa.go (C47 of properties.jsonl).
-/
namespace GoFloat.Strconv
open Spec

variable {W : ℕ} {F : Format} {size : ℤ} {fmt : Char} {prec : ℤ} {c : ℕ} {s : Bool} {m : ℚ} {val : F64}

/-- C47, formats `e` and `E`: the text with precision `n` denotes the exact value of the float rounded to `n + 1` significant
digits, half to even, for every finite float of the three sizes and with either algorithm. -/
theorem C47_exponential (hW : W = 32 ∨ W = 64) (hS : SizeOf F size) (hfmt : fmt = 'e' ∨ fmt = 'E') (hp : 0 ≤ prec) (opt : Bool)
    (hc : F.decode c = .num s m) (hd : double.decode val.toNat = .num s m) :
    ∃ t q, genericFtoa W opt val fmt prec size = .ok t ∧ readDecimal t = some (s, q) ∧ (m = 0 → q = 0) ∧
      (m ≠ 0 → RoundedDigits (prec.toNat + 1) m q) := by
  have hD : DecimalFormat fmt := by unfold DecimalFormat; rcases hfmt with rfl | rfl <;> simp
  have hg : ¬ (fmt = 'g' ∨ fmt = 'G') := by rcases hfmt with rfl | rfl <;> decide
  obtain ⟨ds, dp, h1, h2, h3, h4, h5, h6⟩ := fixed_text_eg hW hS hD (by rcases hfmt with rfl | rfl <;> decide) hp opt hc hd
  rw [if_neg hg] at h3 h4 h6
  refine ⟨_, _, h6, formatDigits_fixed_read s h1.digit dp false hD.digit h5 hp (by unfold EnoughDigits; rw [if_pos hfmt]; exact h3), fun h => ?_, fun h => ?_⟩
  · rw [h2.2 h]
    simp [decValue]
  · have := h4 h
    rwa [show (prec + 1).toNat = prec.toNat + 1 by omega] at this

-- -11/8 as a half, with 2 places
example := C47_exponential (W := 64) (.inr rfl) (F := half) (size := 16) (.inl ⟨rfl, rfl⟩) (fmt := 'e') (.inl rfl) (prec := 2) (by norm_num) true Sample.x_half (val := 0xBFF6000000000000) Sample.x_double

/-- C47, formats `g` and `G`: precision `n` is the number of significant digits, at least one. -/
theorem C47_general (hW : W = 32 ∨ W = 64) (hS : SizeOf F size) (hfmt : fmt = 'g' ∨ fmt = 'G') (hp : 0 ≤ prec) (opt : Bool)
    (hc : F.decode c = .num s m) (hd : double.decode val.toNat = .num s m) :
    ∃ t q, genericFtoa W opt val fmt prec size = .ok t ∧ readDecimal t = some (s, q) ∧ (m = 0 → q = 0) ∧
      (m ≠ 0 → RoundedDigits (max prec.toNat 1) m q) := by
  have hD : DecimalFormat fmt := by unfold DecimalFormat; rcases hfmt with rfl | rfl <;> simp
  obtain ⟨ds, dp, h1, h2, h3, h4, h5, h6⟩ := fixed_text_eg hW hS hD (by rcases hfmt with rfl | rfl <;> decide) hp opt hc hd
  rw [if_pos hfmt] at h3 h4 h6
  refine ⟨_, _, h6, formatDigits_fixed_read s h1.digit dp false hD.digit h5 (by omega) ?_, fun h => ?_, fun h => ?_⟩
  · unfold EnoughDigits
    rw [if_neg (by rcases hfmt with rfl | rfl <;> decide), if_neg (by rcases hfmt with rfl | rfl <;> decide)]
    exact h3
  · rw [h2.2 h]
    simp [decValue]
  · have := h4 h
    rwa [show (max prec 1).toNat = max prec.toNat 1 by omega] at this

example := C47_general (W := 64) (.inr rfl) (F := half) (size := 16) (.inl ⟨rfl, rfl⟩) (fmt := 'g') (.inl rfl) (prec := 2) (by norm_num) true Sample.x_half (val := 0xBFF6000000000000) Sample.x_double

/-- C47, format `f`: the text with precision `n` denotes the exact value of the float rounded to a multiple of 10⁻ⁿ, half to
even. -/
theorem C47_fixed (hW : W = 32 ∨ W = 64) (hS : SizeOf F size) (hp : 0 ≤ prec) (opt : Bool)
    (hc : F.decode c = .num s m) (hd : double.decode val.toNat = .num s m) :
    ∃ (t : Text) (z : ℕ), genericFtoa W opt val 'f' prec size = .ok t ∧ readDecimal t = some (s, z / (10 : ℚ) ^ prec.toNat) ∧
      NearestEven (m * (10 : ℚ) ^ prec.toNat) z := by
  obtain ⟨ds, dp, z, h1, h2, h3, h4, h5⟩ := fixed_text_f hW hS hp opt hc hd
  have hz : (10 : ℚ) ^ prec = (10 : ℚ) ^ prec.toNat := by
    rw [← zpow_natCast, Int.toNat_of_nonneg hp]
  refine ⟨_, z, h5, ?_, by rw [← hz]; exact_mod_cast h2⟩
  rw [fmtF_read s h1.digit dp false prec hp h4, h3, zpow_neg, hz, div_eq_mul_inv]

example := C47_fixed (W := 64) (.inr rfl) (F := half) (size := 16) (.inl ⟨rfl, rfl⟩) (prec := 2) (by norm_num) true Sample.x_half (val := 0xBFF6000000000000) Sample.x_double

/-- C47: the fast algorithm prints what the exact one prints. -/
theorem C47_fast_path (hW : W = 32 ∨ W = 64) (hS : SizeOf F size) (hfmt : DecimalFormat fmt) (hp : 0 ≤ prec)
    (hc : F.decode c = .num s m) (hd : double.decode val.toNat = .num s m) :
    genericFtoa W true val fmt prec size = genericFtoa W false val fmt prec size := by
  have hF := hS.go
  obtain ⟨n, k, N, hs, rfl, -, -, hz⟩ := value_split hF hc
  rw [genericFtoa_finite hS hs hd, genericFtoa_finite hS hs hd, ftoaFinite_fixed hW hF hs _ hp s hfmt.digit,
    ftoaFinite_fixed hW hF hs _ hp s hfmt.digit]

-- a half-way case goes to even in both directions: 0.125 and 0.375 to two places; 2.5e0 to one digit
example : formatFloat 64 0x3FC0000000000000 'f' 2 64 = .ok "0.12".toList ∧ formatFloat 64 0x3FD8000000000000 'f' 2 64 = .ok "0.38".toList := by
  decide +kernel
example : formatFloat 64 0x4004000000000000 'e' 0 64 = .ok "2e+00".toList ∧ formatFloat 32 0xC00C000000000000 'g' 1 32 = .ok "-4".toList := by
  decide +kernel
-- a digit more than the fast algorithm can do, and a number that rounds to nothing
example : formatFloat 64 0x3FB999999999999A 'e' 19 64 = .ok "1.0000000000000000555e-01".toList := by decide +kernel
example : formatFloat 64 0xBFB999999999999A 'f' 0 64 = .ok "-0".toList := by decide +kernel
example : double.decode (0x3FC0000000000000 : F64).toNat = .num false (1 / 8) ∧ NearestEven (1 / 8 * (10 : ℚ) ^ 2) 12 := by
  constructor
  · show double.decode 0x3FC0000000000000 = _
    norm_num [double, Format.decode, Format.bias]
  · unfold NearestEven
    norm_num [abs_of_pos]
    decide

end GoFloat.Strconv
