import Verif.Proofs.Sample
import Verif.Props.FtoaFixed
import Verif.Proofs.FtoaOrder
/-
FormatFloat with so many digits that nothing is lost (C63 of properties.jsonl).
-/
namespace GoFloat.Strconv
open Spec

/-- How many significant digits the longest exact decimal expansion of a number of the size has. -/
def exactDigits (size : ℤ) : ℕ := if size = 16 then 21 else if size = 32 then 112 else 767

/-- How many digits after the decimal point the longest exact decimal expansion of a number of the size has. -/
def exactPlaces (size : ℤ) : ℕ := if size = 16 then 24 else if size = 32 then 149 else 1074

variable {F : Format} {W : ℕ} {size prec : ℤ} {fmt : Char} {s : Bool} {m : ℚ} {val : BitVec 64} {c : ℕ}

/-- A whole number of `2^-Q`s is a whole number of `10^-Q`s. -/
theorem two_ten (N j Q : ℕ) : (N : ℚ) * (2 : ℚ) ^ (-(Q : ℤ) + j) * 10 ^ Q = (N * 2 ^ j * 5 ^ Q : ℕ) := by
  rw [zpow_add₀ (by norm_num), zpow_neg, zpow_natCast, zpow_natCast, show (10 : ℚ) = 2 * 5 by norm_num, mul_pow]
  push_cast
  field_simp

theorem places_of_split {n k N Q : ℕ} (h : Split F n k N) (hQ : F.qmin = -(Q : ℤ)) : F.magc n * 10 ^ Q = (N * 2 ^ k * 5 ^ Q : ℕ) := by
  rw [h.value, hQ, two_ten]

theorem digits_of_split {n k N Q D : ℕ} (h : Split F n k N) (hQ : F.qmin = -(Q : ℤ)) (h1 : 2 ^ (F.t + 1) * 5 ^ Q < 10 ^ D)
    (h2 : 2 ^ (F.t + 1) * 2 ^ (2 ^ F.w - Q) < 10 ^ D) : FitsDigits D (F.magc n) := by
  rw [h.value, hQ]
  by_cases hk : k ≤ Q
  · refine ⟨N * 5 ^ (Q - k), -((Q - k : ℕ) : ℤ), ?_, ?_⟩
    · calc N * 5 ^ (Q - k) ≤ 2 ^ (F.t + 1) * 5 ^ Q := Nat.mul_le_mul h.lt.le (Nat.pow_le_pow_right (by norm_num) (by omega))
        _ < _ := h1
    · rw [show -(Q : ℤ) + k = -((Q - k : ℕ) : ℤ) by omega, zpow_neg, zpow_neg, zpow_natCast, zpow_natCast,
        show (10 : ℚ) = 2 * 5 by norm_num, mul_pow]
      push_cast
      field_simp
  · refine ⟨N * 2 ^ (k - Q), 0, ?_, ?_⟩
    · calc N * 2 ^ (k - Q) ≤ 2 ^ (F.t + 1) * 2 ^ (2 ^ F.w - Q) :=
            Nat.mul_le_mul h.lt.le (Nat.pow_le_pow_right (by norm_num) (by have := h.k_lt; omega))
        _ < _ := h2
    · rw [show -(Q : ℤ) + k = ((k - Q : ℕ) : ℤ) by omega, zpow_natCast]
      push_cast
      simp

/-- Every finite number of the size has an exact decimal expansion this short. -/
theorem exact_digits (hS : SizeOf F size) (hc : F.decode c = .num s m) : FitsDigits (exactDigits size) m := by
  obtain ⟨n, k, N, hs, rfl, -⟩ := value_split hS.go hc
  rcases hS with ⟨rfl, rfl⟩ | ⟨rfl, rfl⟩ | ⟨rfl, rfl⟩
  · exact digits_of_split (Q := 24) hs (by decide) (by norm_num [half, exactDigits]) (by norm_num [half, exactDigits])
  · exact digits_of_split (Q := 149) hs (by decide) (by norm_num [single, exactDigits]) (by norm_num [single, exactDigits])
  · exact digits_of_split (Q := 1074) hs (by decide) (by decide +kernel) (by decide +kernel)

/-- Every finite number of the size is a whole number of units in this decimal place. -/
theorem exact_places (hS : SizeOf F size) (hc : F.decode c = .num s m) : ∃ z : ℕ, m * 10 ^ exactPlaces size = z := by
  obtain ⟨n, k, N, hs, rfl, -⟩ := value_split hS.go hc
  rcases hS with ⟨rfl, rfl⟩ | ⟨rfl, rfl⟩ | ⟨rfl, rfl⟩
  · exact ⟨_, places_of_split (Q := 24) hs (by decide)⟩
  · exact ⟨_, places_of_split (Q := 149) hs (by decide)⟩
  · exact ⟨_, places_of_split (Q := 1074) hs (by decide)⟩

theorem fits_more {n n' : ℕ} (h : n ≤ n') {q : ℚ} (hq : FitsDigits n q) : FitsDigits n' q := by
  obtain ⟨a, e, h1, h2⟩ := hq
  exact ⟨a, e, h1.trans_le (Nat.pow_le_pow_right (by norm_num) h), h2⟩

theorem decode_nonneg (hc : F.decode c = .num s m) : 0 ≤ m := by
  obtain ⟨n, hn, rfl, -⟩ := F.code_of_decode hc
  exact F.magc_nonneg n

/-- A number that has that few digits is what it is rounded to. -/
theorem rounded_exact {n : ℕ} (hn : 1 ≤ n) {m q : ℚ} (hm : 0 < m) (hf : FitsDigits n m) (h : RoundedDigits n m q) : q = m :=
  roundedDigits_unique hn h (fits_rounded hn (B := 10 ^ n + 1) (by linarith) hm hf (by simp [hm.le]))

/-- C63: `'e'` and `'E'` with that many digits print the number itself. -/
theorem C63_exponential (hW : W = 32 ∨ W = 64) (hS : SizeOf F size) (hfmt : fmt = 'e' ∨ fmt = 'E') (hp : (exactDigits size : ℤ) ≤ prec + 1)
    (opt : Bool) (hc : F.decode c = .num s m) (hd : double.decode val.toNat = .num s m) :
    ∃ t, genericFtoa W opt val fmt prec size = .ok t ∧ readDecimal t = some (s, m) := by
  have h21 : 21 ≤ exactDigits size := by unfold exactDigits; split_ifs <;> norm_num
  obtain ⟨t, q, h1, h2, h3, h4⟩ := C47_exponential hW hS hfmt (prec := prec) (by omega) opt hc hd
  refine ⟨t, h1, ?_⟩
  rw [h2]
  by_cases hm : m = 0
  · rw [h3 hm, hm]
  · rw [rounded_exact (by omega) (lt_of_le_of_ne (decode_nonneg hc) (Ne.symm hm)) (fits_more (by omega) (exact_digits hS hc)) (h4 hm)]

example := C63_exponential (W := 64) (.inr rfl) (F := half) (size := 16) (.inl ⟨rfl, rfl⟩) (fmt := 'e') (.inl rfl) (prec := 20) (by norm_num [exactDigits]) true Sample.x_half (val := 0xBFF6000000000000) Sample.x_double

/-- C63: `'g'` and `'G'` with that many digits print the number itself. -/
theorem C63_general (hW : W = 32 ∨ W = 64) (hS : SizeOf F size) (hfmt : fmt = 'g' ∨ fmt = 'G') (hp : (exactDigits size : ℤ) ≤ prec)
    (opt : Bool) (hc : F.decode c = .num s m) (hd : double.decode val.toNat = .num s m) :
    ∃ t, genericFtoa W opt val fmt prec size = .ok t ∧ readDecimal t = some (s, m) := by
  have h21 : 21 ≤ exactDigits size := by unfold exactDigits; split_ifs <;> norm_num
  obtain ⟨t, q, h1, h2, h3, h4⟩ := C47_general hW hS hfmt (prec := prec) (by omega) opt hc hd
  refine ⟨t, h1, ?_⟩
  rw [h2]
  by_cases hm : m = 0
  · rw [h3 hm, hm]
  · rw [rounded_exact (by omega) (lt_of_le_of_ne (decode_nonneg hc) (Ne.symm hm)) (fits_more (by omega) (exact_digits hS hc)) (h4 hm)]

example := C63_general (W := 64) (.inr rfl) (F := half) (size := 16) (.inl ⟨rfl, rfl⟩) (fmt := 'G') (.inr rfl) (prec := 21) (by norm_num [exactDigits]) true Sample.x_half (val := 0xBFF6000000000000) Sample.x_double

/-- C63: `'f'` with that many decimals prints the number itself. -/
theorem C63_fixed (hW : W = 32 ∨ W = 64) (hS : SizeOf F size) (hp : (exactPlaces size : ℤ) ≤ prec)
    (opt : Bool) (hc : F.decode c = .num s m) (hd : double.decode val.toNat = .num s m) :
    ∃ t, genericFtoa W opt val 'f' prec size = .ok t ∧ readDecimal t = some (s, m) := by
  obtain ⟨t, z, h1, h2, h3⟩ := C47_fixed hW hS (prec := prec) (by omega) opt hc hd
  refine ⟨t, h1, ?_⟩
  obtain ⟨y, hy⟩ := exact_places hS hc
  have hy' : m * 10 ^ prec.toNat = ((y * 10 ^ (prec.toNat - exactPlaces size) : ℕ) : ℤ) := by
    conv_lhs => rw [show prec.toNat = exactPlaces size + (prec.toNat - exactPlaces size) by omega, pow_add, ← mul_assoc, hy]
    push_cast; ring
  have hz : (z : ℤ) = ((y * 10 ^ (prec.toNat - exactPlaces size) : ℕ) : ℤ) := by
    rw [hy'] at h3
    refine nearestEven_unique h3 ⟨by simp, by simp⟩
  rw [h2, show (z : ℚ) = m * 10 ^ prec.toNat by rw [hy']; exact_mod_cast hz]
  congr 2
  field_simp

example := C63_fixed (W := 64) (.inr rfl) (F := half) (size := 16) (.inl ⟨rfl, rfl⟩) (prec := 24) (by norm_num [exactPlaces]) true Sample.x_half (val := 0xBFF6000000000000) Sample.x_double

/-- An odd multiple of a decimal unit has no fewer digits than the multiple. -/
theorem odd_digits {A Q n : ℕ} (hA : A % 2 = 1) (hn : 10 ^ n ≤ A) {m : ℚ} (hm : m * 10 ^ Q = A) : ¬ FitsDigits n m := by
  rintro ⟨a, e, h1, h2⟩
  have hp : (0 : ℚ) < 10 ^ Q := by positivity
  by_cases he : -(Q : ℤ) ≤ e
  · obtain ⟨j, hj⟩ : ∃ j : ℕ, e = -(Q : ℤ) + j := ⟨(e + Q).toNat, by omega⟩
    have : A = a * 10 ^ j := by
      have : (A : ℚ) = (a * 10 ^ j : ℕ) := by
        rw [← hm, h2, hj, zpow_add₀ (by norm_num), zpow_neg, zpow_natCast, zpow_natCast]
        push_cast; field_simp
      exact_mod_cast this
    rcases j with _ | j
    · omega
    · rw [this, pow_succ, ← mul_assoc] at hA
      omega
  · obtain ⟨j, hj⟩ : ∃ j : ℕ, e = -(Q : ℤ) - j := ⟨(-e - Q).toNat, by omega⟩
    have : a = A * 10 ^ j := by
      have : (a : ℚ) = (A * 10 ^ j : ℕ) := by
        push_cast
        rw [← hm, h2, hj, zpow_sub₀ (by norm_num), zpow_neg, zpow_natCast, zpow_natCast]
        field_simp
      exact_mod_cast this
    have h3 := Nat.le_mul_of_pos_right A (Nat.pow_pos (n := j) (show 0 < 10 by norm_num))
    omega

/-- C63: one digit less is not enough in any of the sizes: the number just below the second power of two above the smallest
normal number needs them all. -/
theorem C63_sharp (hS : SizeOf F size) : ∃ c m, F.decode c = .num false m ∧ ¬ FitsDigits (exactDigits size - 1) m := by
  rcases hS with ⟨rfl, rfl⟩ | ⟨rfl, rfl⟩ | ⟨rfl, rfl⟩
  · refine ⟨0x07FF, _, half.decode_code false (n := 0x07FF) (by decide), ?_⟩
    exact odd_digits (A := (2 ^ 11 - 1) * 5 ^ 24) (Q := 24) (by norm_num) (by norm_num [exactDigits]) (by norm_num [Format.magc, half, Format.qmin, Format.bias])
  · refine ⟨0x00FFFFFF, _, single.decode_code false (n := 0x00FFFFFF) (by decide), ?_⟩
    exact odd_digits (A := (2 ^ 24 - 1) * 5 ^ 149) (Q := 149) (by norm_num) (by norm_num [exactDigits]) (by norm_num [Format.magc, single, Format.qmin, Format.bias])
  · refine ⟨0x001FFFFFFFFFFFFF, _, double.decode_code false (n := 0x001FFFFFFFFFFFFF) (by decide), ?_⟩
    exact odd_digits (A := (2 ^ 53 - 1) * 2 ^ 0 * 5 ^ 1074) (Q := 1074) (by decide +kernel) (by decide +kernel)
      (places_of_split (F := double) (Q := 1074) ⟨by decide +kernel, by decide, Or.inl rfl, by decide⟩ (by decide))

-- the smallest half-precision number, 2^-24, in full; and the double nearest to 0.1
example : formatFloat 64 0x3E70000000000000 'e' 20 16 = .ok "5.96046447753906250000e-08".toList ∧
    formatFloat 64 0x3E70000000000000 'f' 24 16 = .ok "0.000000059604644775390625".toList := by decide +kernel
example : formatFloat 64 0x3FB999999999999A 'g' 767 64 = .ok "0.1000000000000000055511151231257827021181583404541015625".toList := by
  decide +kernel
example : half.decode 1 = .num false (1 / 2 ^ 24) ∧ double.decode (0x3E70000000000000 : F64).toNat = .num false (1 / 2 ^ 24) := by
  constructor
  · norm_num [half, Format.decode, Format.bias]
  · show double.decode 0x3E70000000000000 = _
    norm_num [double, Format.decode, Format.bias]

end GoFloat.Strconv
