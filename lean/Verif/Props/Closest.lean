import Verif.Props.ShortestExact
/-
For exactly which floats the text with a negative precision is the closest of the shortest ones (C51 of properties.jsonl).
-/
namespace GoFloat.Strconv
open Spec

variable {F : Format} {W : ℕ} {fmt : Char} {size : ℤ} {c : ℕ} {s : Bool} {m : ℚ} {val : F64}

/-- The decimal printed is the closest one, unless the float is exceptional and more than half a unit is cut off. -/
theorem closest_iff (hS : SizeOf F size) (hc : F.decode c = .num s m) (hm0 : m ≠ 0) {q : ℚ} {L : ℕ} {e : ℤ} (h : F.Printed s c m q L e) :
    (∀ y, FitsDigits L y → F.RoundsTo s y c → |q - m| ≤ |y - m|) ↔ ¬ (F.Exceptional c m L ∧ (10 : ℚ) ^ e < 2 * (m - q)) := by
  have hF := hS.go
  have hb' := hF.bounds
  obtain ⟨n, k, N, hs, rfl, d1, d2, hz⟩ := value_split hF hc
  have hN0 : N ≠ 0 := fun hc => hm0 (hz.1 hc)
  have hn0 : n ≠ 0 := fun hc => hN0 (hs.zero_iff.2 hc)
  have hri : ∀ y, 0 ≤ y → (F.RoundsTo s y c ↔ InInterval F n y) := fun y hy =>
    (roundsTo_congr d1 d2).trans (roundsTo_iff F (by omega) (by omega) s hs.fin hy)
  have hu : (0 : ℚ) < (10 : ℚ) ^ e := zpow_pos (by norm_num) _
  have hself := inInterval_self (F := F) n
  have hL := h.pos
  have hlo := h.lower
  have hup := h.upper
  have hpow : (10 : ℚ) ^ (e + L) = (10 : ℚ) ^ L * (10 : ℚ) ^ e := by
    rw [← zpow_natCast, ← zpow_add₀ (by norm_num), add_comm]
  have hpow' : (10 : ℚ) ^ (e + L - 1) = (10 : ℚ) ^ (L - 1) * (10 : ℚ) ^ e := by
    rw [← zpow_natCast, ← zpow_add₀ (by norm_num)]
    congr 1
    omega
  constructor
  · rintro hcl ⟨hx, hgt⟩
    obtain ⟨w, hq, h1, h2⟩ := h.cut hx
    have hq0 : 0 ≤ q := by rw [hq]; positivity
    have hfit : FitsDigits L (q + (10 : ℚ) ^ e) := by
      have hw : (w : ℚ) * (10 : ℚ) ^ e < (10 : ℚ) ^ L * (10 : ℚ) ^ e := by rw [← hpow, ← hq]; linarith
      have hw' : w < 10 ^ L := by exact_mod_cast lt_of_mul_lt_mul_right hw hu.le
      rcases Nat.lt_or_ge (w + 1) (10 ^ L) with hlt | hge
      · exact ⟨w + 1, e, hlt, by rw [hq]; push_cast; ring⟩
      · refine ⟨1, e + L, Nat.one_lt_pow (by omega) (by norm_num), ?_⟩
        have : w + 1 = 10 ^ L := by omega
        rw [hpow, hq, show (w : ℚ) = 10 ^ L - 1 by rw [eq_sub_iff_add_eq]; exact_mod_cast this]
        push_cast
        ring
    have hread : F.RoundsTo s (q + (10 : ℚ) ^ e) c := by
      rw [hri _ (by linarith)]
      have hodd : n % 2 = 1 := by
        have hev := signPart_even F (by omega) s
        have := hx.1
        omega
      have hNodd : N % 2 = 1 := by
        have h1 := hs.code
        have h2 : 2 ^ F.t % 2 = 0 := by
          obtain ⟨j, hj⟩ : ∃ j, F.t = j + 1 := ⟨F.t - 1, by omega⟩
          rw [hj, pow_succ]
          omega
        have h3 : k * 2 ^ F.t % 2 = 0 := by rw [Nat.mul_mod, h2]; simp
        omega
      have hnorm : 2 ^ F.t < N ∨ k = 0 := by
        rcases hs.norm with h | h
        · exact Or.inr h
        · left
          rcases Nat.lt_or_ge (2 ^ F.t) N with h' | h'
          · exact h'
          · exfalso
            obtain ⟨j, hj⟩ : ∃ j, F.t = j + 1 := ⟨F.t - 1, by omega⟩
            have : N = 2 ^ F.t := by omega
            rw [hj, pow_succ] at this
            omega
      have hl := hs.lower_mid (by omega)
      have hu' := hs.upper_mid
      have hv := hs.value
      rw [if_pos hnorm] at hl
      have hq' := (hri q hq0).1 h.reads
      have hq'' := (hq'.1 hn0).2 hodd
      have hgap : F.magc n * 2 = 2 * (2 * N * (2 : ℚ) ^ (F.qmin + k - 1)) := by
        rw [hv, show F.qmin + k = (F.qmin + k - 1) + 1 by ring, zpow_add_one₀ (by norm_num)]
        simp only [add_sub_cancel_right]
        ring
      refine ⟨fun _ => ⟨?_, fun _ => ?_⟩, ?_, fun _ => ?_⟩ <;> linarith
    have := hcl _ hfit hread
    rw [abs_of_nonpos (by linarith), abs_of_nonneg (by linarith)] at this
    linarith
  · intro hx
    have key : ∀ z : ℕ, F.RoundsTo s (z * (10 : ℚ) ^ e) c → |q - F.magc n| ≤ |z * (10 : ℚ) ^ e - F.magc n| := by
      intro z hz
      by_cases hex : F.Exceptional c (F.magc n) L
      · obtain ⟨w, hq, h1, h2⟩ := h.cut hex
        have h3 : 2 * (F.magc n - q) ≤ (10 : ℚ) ^ e := not_lt.1 fun h => hx ⟨hex, h⟩
        rw [abs_of_nonpos (by linarith)]
        rcases Nat.lt_or_ge w z with hlt | hge
        · have h4 : ((w : ℚ) + 1) * (10 : ℚ) ^ e ≤ z * (10 : ℚ) ^ e :=
            mul_le_mul_of_nonneg_right (by exact_mod_cast hlt) hu.le
          rw [abs_of_nonneg (by linarith)]
          linarith
        · have h4 : (z : ℚ) * (10 : ℚ) ^ e ≤ w * (10 : ℚ) ^ e :=
            mul_le_mul_of_nonneg_right (by exact_mod_cast hge) hu.le
          rw [abs_of_nonpos (by linarith)]
          linarith
      · obtain ⟨w, hq, h1⟩ := h.pick hex
        have := (h1 z hz).le
        rw [Int.cast_natCast, Int.cast_natCast, ← hq] at this
        exact this
    rintro y ⟨a, f, ha, rfl⟩ hy
    have hf : (0 : ℚ) < (10 : ℚ) ^ f := zpow_pos (by norm_num) _
    rcases lt_or_ge ((a : ℚ) * (10 : ℚ) ^ f) ((10 : ℚ) ^ (e + L - 1)) with hlt | hge
    · have h1 : F.RoundsTo s ((10 ^ (L - 1) : ℕ) * (10 : ℚ) ^ e) c := by
        rw [Nat.cast_pow, Nat.cast_ofNat, ← hpow', hri _ (by positivity)]
        exact InInterval.convex ((hri _ (by positivity)).1 hy) hself hlt.le hlo
      have h2 := key _ h1
      rw [Nat.cast_pow, Nat.cast_ofNat, ← hpow'] at h2
      refine h2.trans ?_
      rw [abs_of_nonpos (by linarith), abs_of_nonpos (by linarith)]
      linarith
    · have h1 : e ≤ f := by
        have h2 : (a : ℚ) * (10 : ℚ) ^ f < (10 : ℚ) ^ (L : ℤ) * (10 : ℚ) ^ f :=
          mul_lt_mul_of_pos_right (by rw [zpow_natCast]; exact_mod_cast ha) hf
        rw [← zpow_add₀ (by norm_num)] at h2
        have := (zpow_lt_zpow_iff_right₀ (by norm_num : (1 : ℚ) < 10)).1 (lt_of_le_of_lt hge h2)
        omega
      obtain ⟨j, hj⟩ := Int.eq_ofNat_of_zero_le (show 0 ≤ f - e by omega)
      have h2 : (a : ℚ) * (10 : ℚ) ^ f = ((a * 10 ^ j : ℕ) : ℚ) * (10 : ℚ) ^ e := by
        rw [show f = (j : ℤ) + e by omega, zpow_add₀ (by norm_num), zpow_natCast]
        push_cast
        ring
      rw [h2] at hy ⊢
      exact key _ hy

/-- C51, exactly where it fails: the decimal printed has the least possible number of digits `L` and is read back as the float; and no other decimal
with `L` digits that is read back as the float is closer, unless the float is exceptional and what is cut off is more than half a unit of the last
place `10^e`. -/
theorem C51_iff_partial (hW : W = 32 ∨ W = 64) (hS : SizeOf F size) (hfmt : DecimalFormat fmt) {prec : ℤ} (hp : prec < 0) (opt : Bool)
    (hc : F.decode c = .num s m) (hm0 : m ≠ 0) (hd : double.decode val.toNat = .num s m) :
    ∃ (t : Text) (q : ℚ) (L : ℕ) (e : ℤ), genericFtoa W opt val fmt prec size = .ok t ∧ readDecimal t = some (s, q) ∧ FitsDigits L q ∧ F.RoundsTo s q c ∧
      (∀ n y, FitsDigits n y → F.RoundsTo s y c → L ≤ n) ∧ (10 : ℚ) ^ (e + L - 1) ≤ m ∧ m < (10 : ℚ) ^ (e + L) ∧
      ((∀ y, FitsDigits L y → F.RoundsTo s y c → |q - m| ≤ |y - m|) ↔ ¬ (F.Exceptional c m L ∧ (10 : ℚ) ^ e < 2 * (m - q))) := by
  obtain ⟨t, q, L, e, h1, h2, h3⟩ := C77_printed hW hS hfmt hp opt hc hm0 hd
  exact ⟨t, q, L, e, h1, h2, h3.fits, h3.reads, h3.least, h3.lower, h3.upper, closest_iff hS hc hm0 h3⟩

-- the exceptional float of `C51_false`: 6445568 of 10^7 is cut off, half a unit is 5000000
example : (10 : ℚ) ^ (7 : ℤ) < 2 * (583395537938022366445568 - 583395537938022360000000) := by norm_num

end GoFloat.Strconv
