import Verif.Proofs.FtoaOrder
import Verif.Proofs.Sample
import Verif.Props.FtoaDigits
import Verif.Props.FtoaFixed
/-
C102: no number of as many digits is nearer to the float than the one `FormatFloat` prints, so printing more digits never takes the text
further from the float.
-/
namespace GoFloat.Strconv
open Spec

variable {W : ℕ} {F : Format} {size : ℤ} {fmt : Char} {prec prec' : ℤ} {c : ℕ} {s : Bool} {m : ℚ} {val : F64} {t t' : Text} {q q' : ℚ}

/-- No integer is nearer than the nearest. -/
theorem nearestEven_best {v : ℚ} {k : ℤ} (h : NearestEven v k) (z : ℤ) : |k - v| ≤ |z - v| := by
  by_cases hz : z = k
  · rw [hz]
  · have h1 : (1 : ℚ) ≤ |(z : ℚ) - k| := by
      have : (1 : ℤ) ≤ |z - k| := Int.one_le_abs (sub_ne_zero.2 hz)
      exact_mod_cast this
    have h2 := h.1
    have h3 : |(z : ℚ) - k| ≤ |(z : ℚ) - v| + |v - k| := abs_sub_le _ _ _
    rw [abs_sub_comm] at h2 ⊢
    rw [abs_sub_comm] at h2
    linarith

/-- No number of `n` digits is nearer than the number rounded to `n` digits. -/
theorem rounded_best {n : ℕ} (hn : 1 ≤ n) {v y r : ℚ} (h : RoundedDigits n v y) (hr : FitsDigits n r) : |y - v| ≤ |r - v| := by
  obtain ⟨k, e, h1, h2, h3, rfl⟩ := h
  obtain ⟨j, f, hj, rfl⟩ := hr
  have hu : (0 : ℚ) < (10 : ℚ) ^ e := by positivity
  have hv : v = v / (10 : ℚ) ^ e * (10 : ℚ) ^ e := by field_simp
  have key : ∀ a : ℚ, |a * (10 : ℚ) ^ e - v| = |a - v / (10 : ℚ) ^ e| * (10 : ℚ) ^ e := fun a => by
    conv_lhs => rw [hv, ← sub_mul, abs_mul, abs_of_pos hu]
  by_cases hef : e ≤ f
  · obtain ⟨d, rfl⟩ : ∃ d : ℕ, f = e + d := ⟨(f - e).toNat, by omega⟩
    have hz := nearestEven_best h3 ((j * 10 ^ d : ℕ) : ℤ)
    rw [zpow_add₀ (by norm_num), zpow_natCast, show (j : ℚ) * ((10 : ℚ) ^ e * 10 ^ d) = ((j * 10 ^ d : ℕ) : ℚ) * (10 : ℚ) ^ e by push_cast; ring, key, key]
    refine mul_le_mul_of_nonneg_right ?_ hu.le
    exact_mod_cast hz
  · have hz := nearestEven_best h3 ((10 ^ (n - 1) : ℕ) : ℤ)
    have hz' : |(k : ℚ) - v / (10 : ℚ) ^ e| ≤ v / (10 : ℚ) ^ e - 10 ^ (n - 1) := by
      refine le_trans (by exact_mod_cast hz) (le_of_eq ?_)
      push_cast
      rw [abs_sub_comm, abs_of_nonneg (by linarith)]
    have hj' : (j : ℚ) * (10 : ℚ) ^ f ≤ 10 ^ (n - 1) * (10 : ℚ) ^ e := by
      have a1 : (j : ℚ) ≤ 10 ^ n := by exact_mod_cast hj.le
      have a2 : (10 : ℚ) ^ f ≤ (10 : ℚ) ^ (e - 1) := zpow_le_zpow_right₀ (by norm_num) (by omega)
      refine le_trans (mul_le_mul a1 a2 (by positivity) (by positivity)) (le_of_eq ?_)
      rw [zpow_sub_one₀ (by norm_num), show (10 : ℚ) ^ n = 10 ^ (n - 1) * 10 by rw [← pow_succ, Nat.sub_add_cancel hn]]
      ring
    have hv' : (10 : ℚ) ^ (n - 1) * (10 : ℚ) ^ e ≤ v := by
      rw [hv]; exact mul_le_mul_of_nonneg_right h1 hu.le
    rw [key, abs_sub_comm ((j : ℚ) * (10 : ℚ) ^ f), abs_of_nonneg (show 0 ≤ v - (j : ℚ) * (10 : ℚ) ^ f by linarith)]
    refine le_trans (mul_le_mul_of_nonneg_right hz' hu.le) ?_
    rw [sub_mul, ← hv]
    linarith

/-- The number of significant digits that a precision of at least zero asks for in the formats `e`, `E`, `g` and `G`. -/
def significant (fmt : Char) (prec : ℤ) : ℕ := if fmt = 'g' ∨ fmt = 'G' then max prec.toNat 1 else prec.toNat + 1

/-- C102, formats `e`, `E`, `g` and `G`: no number of as many significant digits is nearer to the float than the number printed. -/
theorem C102_significant (hW : W = 32 ∨ W = 64) (hS : SizeOf F size) (hfmt : fmt = 'e' ∨ fmt = 'E' ∨ fmt = 'g' ∨ fmt = 'G') (hp : 0 ≤ prec)
    (opt : Bool) (hc : F.decode c = .num s m) (hd : double.decode val.toNat = .num s m) :
    ∃ t q, genericFtoa W opt val fmt prec size = .ok t ∧ readDecimal t = some (s, q) ∧ FitsDigits (significant fmt prec) q ∧
      ∀ r, FitsDigits (significant fmt prec) r → |q - m| ≤ |r - m| := by
  have fin : ∀ n q, 1 ≤ n → (m = 0 → q = 0) → (m ≠ 0 → RoundedDigits n m q) → FitsDigits n q ∧ ∀ r, FitsDigits n r → |q - m| ≤ |r - m| := by
    intro n q hn h0 h1
    by_cases hm : m = 0
    · rw [h0 hm, hm]
      exact ⟨⟨0, 0, by positivity, by simp⟩, fun r _ => by simp⟩
    · exact ⟨roundedDigits_fits hn (h1 hm), fun r hr => rounded_best hn (h1 hm) hr⟩
  rcases (show (fmt = 'e' ∨ fmt = 'E') ∨ fmt = 'g' ∨ fmt = 'G' by tauto) with h | h
  · obtain ⟨t, q, h1, h2, h3, h4⟩ := C47_exponential hW hS h hp opt hc hd
    refine ⟨t, q, h1, h2, ?_⟩
    rw [significant, if_neg (by rcases h with rfl | rfl <;> decide)]
    exact fin _ _ (by omega) h3 h4
  · obtain ⟨t, q, h1, h2, h3, h4⟩ := C47_general hW hS h hp opt hc hd
    refine ⟨t, q, h1, h2, ?_⟩
    rw [significant, if_pos h]
    exact fin _ _ (le_max_right _ _) h3 h4

-- -11/8 as a half, with two digits
example := C102_significant (W := 64) (.inr rfl) (F := half) (size := 16) (.inl ⟨rfl, rfl⟩) (fmt := 'g') (by simp) (prec := 2) (by norm_num) true Sample.x_half (val := 0xBFF6000000000000) Sample.x_double

/-- C102, format `f`: no number of as many decimals is nearer to the float than the number printed. -/
theorem C102_fixed (hW : W = 32 ∨ W = 64) (hS : SizeOf F size) (hp : 0 ≤ prec)
    (opt : Bool) (hc : F.decode c = .num s m) (hd : double.decode val.toNat = .num s m) :
    ∃ t q, genericFtoa W opt val 'f' prec size = .ok t ∧ readDecimal t = some (s, q) ∧ (∃ z : ℕ, q = z / (10 : ℚ) ^ prec.toNat) ∧
      ∀ z : ℤ, |q - m| ≤ |z / (10 : ℚ) ^ prec.toNat - m| := by
  obtain ⟨t, z, h1, h2, h3⟩ := C47_fixed hW hS hp opt hc hd
  refine ⟨t, _, h1, h2, ⟨z, rfl⟩, fun y => ?_⟩
  have hu : (0 : ℚ) < (10 : ℚ) ^ prec.toNat := by positivity
  have key : ∀ a : ℚ, |a / (10 : ℚ) ^ prec.toNat - m| = |a - m * (10 : ℚ) ^ prec.toNat| / (10 : ℚ) ^ prec.toNat := fun a => by
    conv_rhs => rw [← abs_of_pos hu, ← abs_div, abs_of_pos hu, sub_div, mul_div_cancel_right₀ _ hu.ne']
  rw [key, key]
  have := nearestEven_best h3 y
  exact div_le_div_of_nonneg_right (by exact_mod_cast this) hu.le

example := C102_fixed (W := 64) (.inr rfl) (F := half) (size := 16) (.inl ⟨rfl, rfl⟩) (prec := 2) (by norm_num) true Sample.x_half (val := 0xBFF6000000000000) Sample.x_double

theorem fits_le {n n' : ℕ} (h : n ≤ n') (hr : FitsDigits n q) : FitsDigits n' q := by
  obtain ⟨k, e, h1, h2⟩ := hr
  exact ⟨k, e, lt_of_lt_of_le h1 (Nat.pow_le_pow_right (by norm_num) h), h2⟩

/-- C102: the text with the larger precision denotes a number that is at least as near to the float, in each of the five decimal formats. -/
theorem C102_more (hW : W = 32 ∨ W = 64) (hS : SizeOf F size) (hfmt : DecimalFormat fmt) (hp : 0 ≤ prec) (hpp : prec ≤ prec')
    (opt opt' : Bool) (hc : F.decode c = .num s m) (hd : double.decode val.toNat = .num s m)
    (ht : genericFtoa W opt val fmt prec size = .ok t) (ht' : genericFtoa W opt' val fmt prec' size = .ok t')
    (hq : readDecimal t = some (s, q)) (hq' : readDecimal t' = some (s, q')) : |q' - m| ≤ |q - m| := by
  by_cases hf : fmt = 'f'
  · subst hf
    obtain ⟨t₁, q₁, a1, a2, ⟨z, a3⟩, -⟩ := C102_fixed hW hS hp opt hc hd
    obtain ⟨t₂, q₂, b1, b2, -, b4⟩ := C102_fixed hW hS (hp.trans hpp) opt' hc hd
    obtain rfl : t₁ = t := Except.ok.inj (a1.symm.trans ht)
    obtain rfl : t₂ = t' := Except.ok.inj (b1.symm.trans ht')
    obtain rfl : q₁ = q := congrArg Prod.snd (Option.some.inj (a2.symm.trans hq))
    obtain rfl : q₂ = q' := congrArg Prod.snd (Option.some.inj (b2.symm.trans hq'))
    have h := b4 ((z * 10 ^ (prec'.toNat - prec.toNat) : ℕ) : ℤ)
    rwa [show (((z * 10 ^ (prec'.toNat - prec.toNat) : ℕ) : ℤ) : ℚ) / (10 : ℚ) ^ prec'.toNat = q₁ by
      rw [a3, div_eq_div_iff (by positivity) (by positivity)]
      push_cast
      rw [mul_assoc, ← pow_add, Nat.sub_add_cancel (by omega)]] at h
  · have hfmt' : fmt = 'e' ∨ fmt = 'E' ∨ fmt = 'g' ∨ fmt = 'G' := by
      simp only [DecimalFormat, List.mem_cons, List.not_mem_nil, or_false] at hfmt; tauto
    obtain ⟨t₁, q₁, a1, a2, a3, -⟩ := C102_significant hW hS hfmt' hp opt hc hd
    obtain ⟨t₂, q₂, b1, b2, -, b4⟩ := C102_significant hW hS hfmt' (hp.trans hpp) opt' hc hd
    obtain rfl : t₁ = t := Except.ok.inj (a1.symm.trans ht)
    obtain rfl : t₂ = t' := Except.ok.inj (b1.symm.trans ht')
    obtain rfl : q₁ = q := congrArg Prod.snd (Option.some.inj (a2.symm.trans hq))
    obtain rfl : q₂ = q' := congrArg Prod.snd (Option.some.inj (b2.symm.trans hq'))
    refine b4 _ (fits_le ?_ a3)
    unfold significant
    split_ifs <;> omega

-- -11/8 with one place and with two: -1.4 is further than -1.38
example : |(69 / 50 : ℚ) - 11 / 8| ≤ |7 / 5 - 11 / 8| :=
  C102_more (W := 64) (.inr rfl) (F := half) (size := 16) (.inl ⟨rfl, rfl⟩) (fmt := 'f') (by simp [DecimalFormat]) (prec := 1) (prec' := 2) (by norm_num) (by norm_num)
    true true Sample.x_half (val := 0xBFF6000000000000) Sample.x_double (t := "-1.4".toList) (t' := "-1.38".toList) (by decide +kernel) (by decide +kernel)
    (by decide +kernel) (by decide +kernel)

/-- C102: a text of at least 5, 9 or 17 significant digits denotes a number at least as near to the float as the shortest text does. -/
theorem C102_shortest {fmt' : Char} (hW : W = 32 ∨ W = 64) (hS : SizeOf F size) (hfmt : fmt = 'e' ∨ fmt = 'E' ∨ fmt = 'g' ∨ fmt = 'G')
    (hfmt' : DecimalFormat fmt') (hp : 0 ≤ prec) (hn : maxDigits size ≤ significant fmt prec) (hp' : prec' < 0)
    (opt opt' : Bool) (hc : F.decode c = .num s m) (hd : double.decode val.toNat = .num s m)
    (ht : genericFtoa W opt val fmt prec size = .ok t) (ht' : genericFtoa W opt' val fmt' prec' size = .ok t')
    (hq : readDecimal t = some (s, q)) (hq' : readDecimal t' = some (s, q')) : |q - m| ≤ |q' - m| := by
  obtain ⟨t₁, q₁, a1, a2, -, a4⟩ := C102_significant hW hS hfmt hp opt hc hd
  obtain ⟨t₂, q₂, b1, b2, b3⟩ := C53_digits hW hS hp' opt' hc hd hfmt'
  obtain rfl : t₁ = t := Except.ok.inj (a1.symm.trans ht)
  obtain rfl : t₂ = t' := Except.ok.inj (b1.symm.trans ht')
  obtain rfl : q₁ = q := congrArg Prod.snd (Option.some.inj (a2.symm.trans hq))
  obtain rfl : q₂ = q' := congrArg Prod.snd (Option.some.inj (b2.symm.trans hq'))
  exact a4 _ (fits_le hn b3)

-- the float64 nearest to 0.1: the shortest text is 0.1, the text of 17 digits is nearer
example : |(10000000000000001 / 100000000000000000 : ℚ) - 3602879701896397 / 36028797018963968| ≤ |1 / 10 - 3602879701896397 / 36028797018963968| :=
  have hd : double.decode (0x3FB999999999999A : BitVec 64).toNat = .num false (3602879701896397 / 36028797018963968) := by
    show double.decode 0x3FB999999999999A = _
    norm_num [double, Format.decode, Format.bias]
  C102_shortest (W := 64) (.inr rfl) (F := double) (size := 64) (.inr (.inr ⟨rfl, rfl⟩)) (fmt := 'g') (fmt' := 'g') (by simp) (by simp [DecimalFormat]) (prec := 17)
    (prec' := -1) (by norm_num) (by decide) (by norm_num) true true hd hd (t := "0.10000000000000001".toList) (t' := "0.1".toList) (by decide +kernel) (by decide +kernel)
    (by decide +kernel) (by decide +kernel)

end GoFloat.Strconv
