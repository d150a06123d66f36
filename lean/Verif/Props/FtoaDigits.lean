import Verif.Proofs.Sample
import Verif.Proofs.IsExact
/-
How many digits FormatFloat prints with a negative precision.
-/
namespace GoFloat.Strconv
open Spec

/-- The number of significant digits that identify every float of a size: 5, 9 and 17. -/
def maxDigits (size : ℤ) : ℕ := if size = 16 then 5 else if size = 32 then 9 else 17

variable {W : ℕ} (hW : W = 32 ∨ W = 64) {F : Format} {size : ℤ} (hS : SizeOf F size) {fmt : Char} {prec : ℤ} (hp : prec < 0) (opt : Bool) {c : ℕ} {s : Bool}
  {m : ℚ} (hc : F.decode c = .num s m) {val : F64} (hd : double.decode val.toNat = .num s m)
include hW hS hp hc hd

/-- C53: with a negative precision the number that is printed has at most 5, 9 or 17 significant digits, in every format. -/
theorem C53_digits (hfmt : DecimalFormat fmt) :
    ∃ t q, genericFtoa W opt val fmt prec size = .ok t ∧ readDecimal t = some (s, q) ∧ FitsDigits (maxDigits size) q := by
  obtain ⟨t, q, h1, h2, h3⟩ := C43_minimal hW hS hfmt hp opt hc hd
  refine ⟨t, q, h1, h2, ?_⟩
  by_cases hm : m = 0
  · subst hm
    exact h3 _ 0 ⟨0, 0, by positivity, by simp⟩ (rounds_self hS hc)
  · have hj : 2 ^ (F.t + 1) < 10 ^ (maxDigits size - 1) ∧ 1 ≤ maxDigits size := by
      rcases hS with ⟨rfl, rfl⟩ | ⟨rfl, rfl⟩ | ⟨rfl, rfl⟩ <;> decide
    obtain ⟨y, y1, y2⟩ := enough_digits hS.go hc hm hj.1 hj.2
    exact h3 _ y y1 y2

example := C53_digits (W := 64) (.inr rfl) (F := half) (size := 16) (.inl ⟨rfl, rfl⟩) (prec := -1) (by norm_num) false Sample.x_half (val := 0xBFF6000000000000) Sample.x_double (fmt := 'f') (by simp [DecimalFormat])

/-- C53: formats `e` and `E` then print at most 4, 8 or 16 digits after the point. -/
theorem C53_exponential (hfmt : fmt = 'e' ∨ fmt = 'E') :
    ∃ t d frac x, genericFtoa W opt val fmt prec size = .ok t ∧ IsExponential fmt t s d frac x ∧ frac.length + 1 ≤ maxDigits size := by
  obtain ⟨ds, dp, x, h1, h2, h3, h4, h5, h6, -⟩ := short_text hW hS (fmt := fmt) (by rcases hfmt with rfl | rfl <;> simp [DecimalFormat]) hp opt hc hd
  refine ⟨_, dchar (ds.getD 0 0), (fracE ds ((ds.length : ℤ) - 1)).map dchar, expOf ds dp, h5, ?_, ?_⟩
  · have : formatDigits true s ⟨ds.map (· + 48), dp, x⟩ (shortPrec fmt ds.length dp) fmt = fmtE s ⟨ds.map (· + 48), dp, x⟩ ((ds.length : ℤ) - 1) fmt := by
      rcases hfmt with rfl | rfl <;> rfl
    rw [this]
    exact fmtE_shape s h1.digit dp x _ fmt h4
  · rw [List.length_map, fracE_length]
    have hl : ds.length ≤ maxDigits size := by
      by_cases hm : m = 0
      · rw [h2.2 hm]
        simp
      · have hj : 2 ^ (F.t + 1) < 10 ^ (maxDigits size - 1) ∧ 1 ≤ maxDigits size := by
          rcases hS with ⟨rfl, rfl⟩ | ⟨rfl, rfl⟩ | ⟨rfl, rfl⟩ <;> decide
        obtain ⟨y, y1, y2⟩ := enough_digits hS.go hc hm hj.1 hj.2
        exact h6 _ y y1 y2
    have : 1 ≤ maxDigits size := by
      rcases hS with ⟨rfl, rfl⟩ | ⟨rfl, rfl⟩ | ⟨rfl, rfl⟩ <;> decide
    omega

end GoFloat.Strconv
namespace GoFloat.Strconv
-- concrete cases: the bounds are attained
example : formatFloat 64 0x3FF0000000000001 'e' (-1) 64 = .ok "1.0000000000000002e+00".toList := by decide +kernel
example : formatFloat 64 0x4010000000000001 'g' (-1) 64 = .ok "4.000000000000001".toList := by decide +kernel
end GoFloat.Strconv
