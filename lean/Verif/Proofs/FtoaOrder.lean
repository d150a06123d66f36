import Verif.Proofs.IsExact
import Verif.Proofs.Monotone
/-
Rounding to decimal digits is monotone; few digits survive the conversion to a float, and many digits identify it.
-/
namespace GoFloat
open Spec Strconv

theorem nearestEven_mono {u v : ℚ} {a b : ℤ} (h : u ≤ v) (ha : NearestEven u a) (hb : NearestEven v b) : a ≤ b := by
  rcases h.lt_or_eq with h | rfl
  · by_contra hc
    push Not at hc
    have h1 : (b : ℚ) + 1 ≤ a := by exact_mod_cast hc
    have h2 := abs_le.1 ha.1
    have h3 := abs_le.1 hb.1
    linarith
  · exact (nearestEven_unique ha hb).le

/-- A rounded mantissa of `n` digits. -/
theorem nearestEven_bounds {n : ℕ} {u : ℚ} {M : ℕ} (h1 : (10 : ℚ) ^ (n - 1) ≤ u) (h2 : u < 10 ^ n) (h3 : NearestEven u M) :
    10 ^ (n - 1) ≤ M ∧ M ≤ 10 ^ n := by
  have h4 := abs_le.1 h3.1
  have e : ((M : ℤ) : ℚ) = (M : ℚ) := by norm_cast
  rw [e] at h4
  constructor
  · by_contra hc
    push Not at hc
    have : (M : ℚ) + 1 ≤ 10 ^ (n - 1) := by exact_mod_cast hc
    linarith
  · by_contra hc
    push Not at hc
    have : (10 : ℚ) ^ n + 1 ≤ M := by exact_mod_cast hc
    linarith

theorem roundedDigits_mono {n : ℕ} (hn : 1 ≤ n) {v v' y y' : ℚ} (hle : v ≤ v') (h : RoundedDigits n v y) (h' : RoundedDigits n v' y') : y ≤ y' := by
  obtain ⟨M, e, a1, a2, a3, rfl⟩ := h
  obtain ⟨M', e', b1, b2, b3, rfl⟩ := h'
  have hE : (0 : ℚ) < (10 : ℚ) ^ e := by positivity
  have hE' : (0 : ℚ) < (10 : ℚ) ^ e' := by positivity
  have hee : e ≤ e' := by
    have x1 := (le_div_iff₀ hE).1 a1
    have x2 := (div_lt_iff₀ hE').1 b2
    have := (x1.trans hle).trans_lt x2
    rw [← zpow_natCast, ← zpow_natCast, ← zpow_add₀ (by norm_num), ← zpow_add₀ (by norm_num), zpow_lt_zpow_iff_right₀ (by norm_num)] at this
    omega
  rcases hee.lt_or_eq with hlt | rfl
  · have m1 := (nearestEven_bounds a1 a2 a3).2
    have m2 := (nearestEven_bounds b1 b2 b3).1
    have m1' : (M : ℚ) ≤ 10 ^ n := by exact_mod_cast m1
    have m2' : (10 : ℚ) ^ (n - 1) ≤ M' := by exact_mod_cast m2
    calc (M : ℚ) * 10 ^ e ≤ 10 ^ n * 10 ^ e := by gcongr
      _ ≤ 10 ^ (n - 1) * 10 ^ e' := by
          rw [← zpow_natCast, ← zpow_natCast, ← zpow_add₀ (by norm_num), ← zpow_add₀ (by norm_num)]
          exact zpow_le_zpow_right₀ (by norm_num) (by omega)
      _ ≤ M' * 10 ^ e' := by gcongr
  · have := nearestEven_mono (div_le_div_of_nonneg_right hle hE.le) a3 b3
    have : M ≤ M' := by exact_mod_cast this
    gcongr

theorem roundedDigits_nonneg {n : ℕ} {v y : ℚ} (h : RoundedDigits n v y) : 0 ≤ y := by
  obtain ⟨M, e, -, -, -, rfl⟩ := h
  positivity

theorem roundedDigits_fits {n : ℕ} (hn : 1 ≤ n) {v y : ℚ} (h : RoundedDigits n v y) : FitsDigits n y := by
  obtain ⟨M, e, a1, a2, a3, rfl⟩ := h
  obtain ⟨-, m2⟩ := nearestEven_bounds a1 a2 a3
  rcases m2.lt_or_eq with h | h
  · exact ⟨M, e, h, rfl⟩
  · refine ⟨10 ^ (n - 1), e + 1, Nat.pow_lt_pow_right (by norm_num) (by omega), ?_⟩
    rw [h, zpow_add₀ (by norm_num), zpow_one]
    obtain ⟨k, rfl⟩ := Nat.exists_eq_add_of_le' hn
    push_cast
    simp only [pow_succ]
    ring

/-- A number of `n` digits close to `m` is `m` rounded to `n` digits. -/
theorem fits_rounded {n : ℕ} (hn : 1 ≤ n) {B : ℚ} (hB : 10 ^ n < B) {m d : ℚ} (hm : 0 < m) (hd : FitsDigits n d) (hc : |d - m| * (2 * B) ≤ m) :
    RoundedDigits n m d := by
  obtain ⟨e, he1, he2⟩ : ∃ e : ℤ, (10 : ℚ) ^ e ≤ m ∧ m < (10 : ℚ) ^ (e + 1) := exists_mem_Ico_zpow hm (by norm_num)
  set E : ℤ := e - (n - 1 : ℕ) with hEdef
  have hEp : (0 : ℚ) < (10 : ℚ) ^ E := by positivity
  have p1 : (10 : ℚ) ^ (n - 1) * 10 ^ E = 10 ^ e := by
    rw [← zpow_natCast, ← zpow_add₀ (by norm_num)]; congr 1; omega
  have p2 : (10 : ℚ) ^ n * 10 ^ E = 10 ^ (e + 1) := by
    rw [← zpow_natCast, ← zpow_add₀ (by norm_num)]; congr 1; omega
  have hpn : (0 : ℚ) < 10 ^ n := by positivity
  have hB0 : 0 < B := hpn.trans hB
  -- the distance is less than half a unit
  have hdist : |d - m| < 10 ^ E / 2 := by
    by_contra hx
    push Not at hx
    have : 10 ^ E / 2 * (2 * B) ≤ m := le_trans (by gcongr) hc
    have h3 : (10 : ℚ) ^ n * 10 ^ E < B * 10 ^ E := by gcongr
    rw [p2] at h3
    linarith
  obtain ⟨a, x, ha, rfl⟩ := hd
  have haq : (a : ℚ) < 10 ^ n := by exact_mod_cast ha
  have hxp : (0 : ℚ) < (10 : ℚ) ^ x := by positivity
  -- the number is a multiple of the unit
  have hx : E ≤ x := by
    by_contra hlt
    push Not at hlt
    have h1 : (a : ℚ) * 10 ^ x ≤ (10 ^ n - 1) * 10 ^ x := by
      have : (a : ℚ) + 1 ≤ 10 ^ n := by exact_mod_cast ha
      have : (a : ℚ) ≤ 10 ^ n - 1 := by linarith
      gcongr
    have h2 : (10 : ℚ) ^ x ≤ 10 ^ (E - 1) := zpow_le_zpow_right₀ (by norm_num) (by omega)
    have hn1 : (0 : ℚ) ≤ 10 ^ n - 1 := by
      have : (1 : ℚ) ≤ 10 ^ n := one_le_pow₀ (by norm_num)
      linarith
    have h3 : (a : ℚ) * 10 ^ x ≤ (10 ^ n - 1) * 10 ^ (E - 1) := h1.trans (by gcongr)
    have h4 : (10 : ℚ) ^ n * 10 ^ (E - 1) = 10 ^ e := by
      rw [← zpow_natCast, ← zpow_add₀ (by norm_num)]; congr 1; omega
    -- d ≤ 10^e - 10^(E-1), so the distance to m ≥ 10^e is at least 10^(E-1)
    have h5 : (10 : ℚ) ^ (E - 1) ≤ |a * 10 ^ x - m| := by
      rw [abs_sub_comm]
      refine le_trans ?_ (le_abs_self _)
      linarith
    have h6 : m < 2 * 10 ^ e := by
      have h7 := (abs_lt.1 hdist).1
      have h8 : (10 : ℚ) ^ E ≤ 10 ^ e := zpow_le_zpow_right₀ (by norm_num) (by omega)
      have h9 : (0 : ℚ) < (10 : ℚ) ^ (E - 1) := by positivity
      linarith
    have h9 : (10 : ℚ) ^ (E - 1) * (2 * B) ≤ m := le_trans (by gcongr) hc
    have h10 : (10 : ℚ) ^ n * 10 ^ (E - 1) < B * 10 ^ (E - 1) := by
      have : (0 : ℚ) < (10 : ℚ) ^ (E - 1) := by positivity
      gcongr
    rw [h4] at h10
    linarith
  obtain ⟨k, hk⟩ := Int.eq_ofNat_of_zero_le (sub_nonneg.2 hx)
  have hxk : (10 : ℚ) ^ x = (10 ^ k : ℕ) * 10 ^ E := by
    rw [Nat.cast_pow, ← zpow_natCast, Nat.cast_ofNat, ← zpow_add₀ (by norm_num)]; congr 1; omega
  refine ⟨a * 10 ^ k, E, ?_, ?_, ?_, ?_⟩
  · rw [le_div_iff₀ hEp, p1]; exact he1
  · rw [div_lt_iff₀ hEp, p2]; exact he2
  · have key : |m / 10 ^ E - ((a * 10 ^ k : ℕ) : ℤ)| < 1 / 2 := by
      have : m / 10 ^ E - ((a * 10 ^ k : ℕ) : ℤ) = - (a * 10 ^ x - m) / 10 ^ E := by
        rw [hxk]
        push_cast
        field_simp
        ring
      rw [this, abs_div, abs_neg, abs_of_pos hEp, div_lt_iff₀ hEp]
      linarith
    exact ⟨key.le, fun h => absurd h key.ne⟩
  · rw [hxk]; push_cast; ring

variable {F : Format}

/-- What is rounded to a normal number is within half a unit of it. -/
theorem roundsTo_close (hF : GoFormat F) {c : ℕ} {s : Bool} {m : ℚ} (hc : F.decode c = .num s m) (hnorm : (2 : ℚ) ^ (1 - F.bias) ≤ m)
    {d : ℚ} (hd0 : 0 ≤ d) (hd : F.RoundsTo s d c) : |d - m| * (2 * 2 ^ F.t) ≤ m := by
  obtain ⟨n, k, N, hs, rfl, d1, d2, hz⟩ := value_split hF hc
  have hb := hF.bounds
  have hpos : 0 < F.magc n := lt_of_lt_of_le (by positivity) hnorm
  have hN : N ≠ 0 := fun h => hpos.ne' (hz.1 h)
  have hi := (roundsTo_iff F (by omega) (by omega) s hs.fin hd0).1 ((roundsTo_congr d1 d2).1 hd)
  have hw := interval_width hs hN hi
  have hNt : 2 ^ F.t ≤ N := by
    rcases hs.norm with rfl | h
    · by_contra hlt
      push Not at hlt
      rw [hs.value] at hnorm
      have : (N : ℚ) < 2 ^ F.t := by exact_mod_cast hlt
      have hq : (N : ℚ) * 2 ^ (F.qmin + (0 : ℕ)) < 2 ^ F.t * 2 ^ (F.qmin + (0 : ℕ)) := by gcongr
      rw [← zpow_natCast, ← zpow_add₀ (by norm_num)] at hq
      have : (F.t : ℤ) + (F.qmin + (0 : ℕ)) = 1 - F.bias := by unfold Format.qmin; push_cast; ring
      rw [this] at hq
      linarith
    · exact h
  have hNq : (2 : ℚ) ^ F.t ≤ N := by exact_mod_cast hNt
  rw [hs.value] at hw ⊢
  have e1 := two_zpow_pred (F.qmin + k)
  have hp : (0 : ℚ) < (2 : ℚ) ^ (F.qmin + k - 1) := by positivity
  calc |d - N * 2 ^ (F.qmin + (k : ℤ))| * (2 * 2 ^ F.t) ≤ 2 ^ (F.qmin + k - 1) * (2 * 2 ^ F.t) := by gcongr
    _ = 2 ^ F.t * 2 ^ (F.qmin + (k : ℤ)) := by rw [e1]; ring
    _ ≤ N * 2 ^ (F.qmin + (k : ℤ)) := by gcongr

/-- Many digits identify a float. -/
theorem rounded_roundsTo (hF : GoFormat F) {c : ℕ} {s : Bool} {m : ℚ} (hc : F.decode c = .num s m) (hm : m ≠ 0) {j : ℕ}
    (hj : 2 ^ (F.t + 1) < 10 ^ (j - 1)) {y : ℚ} (h1 : RoundedDigits j m y) : F.RoundsTo s y c := by
  obtain ⟨n, k, N, hs, rfl, d1, d2, hz⟩ := value_split hF hc
  have hb := hF.bounds
  have hN : N ≠ 0 := fun h => hm (hz.1 h)
  refine (roundsTo_congr d1 d2).2 ((roundsTo_iff F (by omega) (by omega) s hs.fin (roundedDigits_nonneg h1)).2 (near_interval hs hN ?_))
  have hpos : 0 < F.magc n := lt_of_le_of_ne (F.magc_nonneg n) (Ne.symm hm)
  have := rounded_near h1
  have hjq : (2 : ℚ) ^ (F.t + 1) < 10 ^ (j - 1) := by exact_mod_cast hj
  rcases (abs_nonneg (y - F.magc n)).eq_or_lt with h | h
  · rw [← h, zero_mul]
    exact hpos
  · refine lt_of_lt_of_le ?_ this
    rw [pow_succ, mul_comm ((2 : ℚ) ^ (F.t + 1))]
    gcongr

end GoFloat
