import Verif.Proofs.Interval
import Verif.Proofs.Ftoa
import Verif.Proofs.Float128ppc
import Verif.Proofs.RoundMode
import Verif.Spec.Bits
/-
Rounding to 106 bits and then to a double: where it differs from rounding to a double at once.
-/
namespace GoFloat.Float128ppc
open Spec Strconv

theorem le_of_le {p : ℕ} {a b : ℚ} (h : RoundsToBits p a b) {K e : ℤ} (hK : |K| < 2 ^ p) (ha : a ≤ K * (2 : ℚ) ^ e) :
    b ≤ K * (2 : ℚ) ^ e := by
  by_contra hc
  push Not at hc
  have h1 := h.2.1 K e hK
  rw [abs_of_neg (by linarith), abs_of_nonpos (by linarith)] at h1
  linarith

theorem ge_of_ge {p : ℕ} {a b : ℚ} (h : RoundsToBits p a b) {K e : ℤ} (hK : |K| < 2 ^ p) (ha : K * (2 : ℚ) ^ e ≤ a) :
    K * (2 : ℚ) ^ e ≤ b := by
  by_contra hc
  push Not at hc
  have h1 := h.2.1 K e hK
  rw [abs_of_pos (by linarith), abs_of_nonneg (by linarith)] at h1
  linarith

theorem eq_of_fits {p : ℕ} {a b : ℚ} (h : RoundsToBits p a b) {K e : ℤ} (hK : |K| < 2 ^ p) (ha : a = K * (2 : ℚ) ^ e) : b = a := by
  have h1 := le_of_le h hK ha.le
  have h2 := ge_of_ge h hK ha.ge
  linarith

/-- Nearer to `b` than to a smaller number. -/
theorem above_mid {p : ℕ} {a b : ℚ} (h : RoundsToBits p a b) {K e : ℤ} (hK : |K| < 2 ^ p) (ha : a < b) (hc : K * (2 : ℚ) ^ e < b) :
    K * (2 : ℚ) ^ e + b ≤ 2 * a := by
  by_contra hlt
  push Not at hlt
  have h1 := h.2.1 K e hK
  rw [abs_of_neg (by linarith)] at h1
  rcases abs_cases (a - K * (2 : ℚ) ^ e) with ⟨h2, -⟩ | ⟨h2, -⟩ <;> rw [h2] at h1 <;> linarith

theorem below_mid {p : ℕ} {a b : ℚ} (h : RoundsToBits p a b) {K e : ℤ} (hK : |K| < 2 ^ p) (ha : b < a) (hc : b < K * (2 : ℚ) ^ e) :
    2 * a ≤ K * (2 : ℚ) ^ e + b := by
  by_contra hlt
  push Not at hlt
  have h1 := h.2.1 K e hK
  rw [abs_of_pos (by linarith)] at h1
  rcases abs_cases (a - K * (2 : ℚ) ^ e) with ⟨h2, -⟩ | ⟨h2, -⟩ <;> rw [h2] at h1 <;> linarith

theorem unit_half (q : ℤ) : (2 : ℚ) ^ (q - 1) = 2 ^ q / 2 ∧ (2 : ℚ) ^ (q - 53) = 2 ^ q / 2 ^ 53 ∧ (2 : ℚ) ^ (q - 54) = 2 ^ q / 2 ^ 54 := by
  refine ⟨?_, ?_, ?_⟩ <;> rw [zpow_sub₀ (by norm_num)] <;> norm_num

/-- A multiple of the smallest unit in the interval of a double, rounded to 106 bits, stays in the interval, unless the
double is odd and the number so near to the end of the interval that it is rounded to it. -/
theorem stays {n k N : ℕ} (hs : Split double n k N) {a b : ℚ} (ha : InInterval double n a) (ha0 : 0 ≤ a) (hb : RoundsToBits 106 a b)
    (hm : ∃ K : ℤ, a = K * (2 : ℚ) ^ (-1074 : ℤ)) :
    InInterval double n b ∨ (N % 2 = 1 ∧ n % 2 = 1 ∧ 2 ^ 52 < N ∧
      ((b = (N + 1 / 2) * (2 : ℚ) ^ (-1074 + k : ℤ) ∧ a < b ∧ b - (2 : ℚ) ^ (-1074 + k - 54 : ℤ) ≤ a) ∨
       (b = (N - 1 / 2) * (2 : ℚ) ^ (-1074 + k : ℤ) ∧ b < a ∧ a ≤ b + (2 : ℚ) ^ (-1074 + k - 54 : ℤ)))) := by
  have ht : double.t = 52 := rfl
  have hq : double.qmin = -1074 := double_facts.1
  have hN := hs.lt
  rw [ht] at hN
  have hNq : (N : ℚ) < 2 ^ 53 := by exact_mod_cast hN
  have hup := hs.upper_mid
  have hval := hs.value
  rw [hq] at hup hval
  have hpar : N % 2 = n % 2 := by
    have := hs.code
    rw [ht] at this
    omega
  set u : ℚ := (2 : ℚ) ^ (-1074 + k : ℤ) with hu
  have hu0 : 0 < u := by positivity
  obtain ⟨u1, u53, u54⟩ := unit_half (-1074 + k)
  rw [← hu] at u1 u53 u54
  rw [u1] at hup
  rw [u54]
  -- the number is a double of 106 bits
  by_cases hsmall : N < 2 ^ 52
  · left
    have hk : k = 0 := by
      rcases hs.norm with h | h
      · exact h
      · rw [ht] at h; omega
    obtain ⟨K, hK⟩ := hm
    have hb' : b = a := by
      refine eq_of_fits hb (K := K) (e := -1074) ?_ hK
      have h1 := ha.2.1
      rw [hup] at h1
      have h2 : u = (2 : ℚ) ^ (-1074 : ℤ) := by rw [hu, hk]; norm_num
      rw [h2] at h1 hu0
      generalize (2 : ℚ) ^ (-1074 : ℤ) = w at hK h1 hu0
      have h3 : (K : ℚ) < 2 ^ 106 := by
        by_contra hc
        push Not at hc
        have : (2 : ℚ) ^ 106 * w ≤ K * w := by gcongr
        have : (N : ℚ) * w < 2 ^ 53 * w := by gcongr
        norm_num at *
        linarith
      have h4 : (0 : ℚ) ≤ K := by
        by_contra hc
        push Not at hc
        have : (K : ℚ) * w < 0 := mul_neg_of_neg_of_pos hc hu0
        linarith
      have h3' : K < 2 ^ 106 := by exact_mod_cast h3
      have h4' : 0 ≤ K := by exact_mod_cast h4
      rw [abs_of_nonneg h4']; exact h3'
    rwa [hb']
  push Not at hsmall
  have hn0 : n ≠ 0 := by have := hs.code; omega
  -- the upper end
  have hU : double.magc n + double.magc (n + 1) = 2 * ((N + 1 / 2) * u) := by rw [hup]; ring
  have hbU : b ≤ (N + 1 / 2) * u := by
    have h := le_of_le (K := 2 * N + 1) (e := -1074 + k - 1) hb (by rw [abs_of_nonneg (by positivity)]; omega)
      (by rw [u1]; push_cast; linarith [ha.2.1])
    rw [u1] at h; push_cast at h; linarith
  -- the lower end
  obtain ⟨L, hL, hbL⟩ : ∃ L : ℚ, double.magc (n - 1) + double.magc n = 2 * L ∧ L ≤ b := by
    by_cases hpow : N = 2 ^ 52
    · by_cases hk0 : k = 0
      · refine ⟨(N - 1 / 2) * u, ?_, ?_⟩
        · rw [hs.pred (by omega) (Or.inl hk0), hval, hq]; ring
        · have hlo := (ha.1 hn0).1
          rw [hs.pred (by omega) (Or.inl hk0), hval, hq] at hlo
          have h := ge_of_ge (K := 2 * N - 1) (e := -1074 + k - 1) hb (by rw [abs_of_nonneg (by omega)]; omega)
            (by rw [u1]; push_cast; linarith)
          rw [u1] at h; push_cast at h; linarith
      · have hpr : double.magc (n - 1) = (2 * (2 : ℚ) ^ 52 - 1) * (u / 2) := by
          have := magc_pred' double hk0
          rw [ht, hq, u1] at this
          rw [← this, hs.code, hpow, ht]
        refine ⟨(4 * (2 : ℚ) ^ 52 - 1) * (u / 4), ?_, ?_⟩
        · rw [hpr, hval, hpow]; push_cast; ring
        · have hlo := (ha.1 hn0).1
          rw [hpr, hval, hpow] at hlo
          have u2 : (2 : ℚ) ^ (-1074 + k - 2 : ℤ) = u / 4 := by rw [zpow_sub₀ (by norm_num)]; norm_num [hu]
          have h := ge_of_ge (K := 4 * 2 ^ 52 - 1) (e := -1074 + k - 2) hb (by norm_num)
            (by rw [u2]; push_cast at hlo ⊢; linarith)
          rw [u2] at h; push_cast at h; linarith
    · refine ⟨(N - 1 / 2) * u, ?_, ?_⟩
      · rw [hs.pred (by omega) (Or.inr (by rw [ht]; omega)), hval, hq]; ring
      · have hlo := (ha.1 hn0).1
        rw [hs.pred (by omega) (Or.inr (by rw [ht]; omega)), hval, hq] at hlo
        have h := ge_of_ge (K := 2 * N - 1) (e := -1074 + k - 1) hb (by rw [abs_of_nonneg (by omega)]; omega)
          (by rw [u1]; push_cast; linarith)
        rw [u1] at h; push_cast at h; linarith
  by_cases hin : InInterval double n b
  · exact Or.inl hin
  right
  have hodd : n % 2 = 1 := by
    by_contra hc
    refine hin ⟨fun _ => ⟨by linarith, fun h => absurd h hc⟩, by linarith, fun h => absurd h hc⟩
  have hNodd : N % 2 = 1 := by omega
  have hNgt : 2 ^ 52 < N := by
    rcases Nat.lt_or_ge (2 ^ 52) N with h | h
    · exact h
    · have : N = 2 ^ 52 := by omega
      rw [this] at hNodd; norm_num at hNodd
  have hNq' : (2 : ℚ) ^ 52 < N := by exact_mod_cast hNgt
  refine ⟨hNodd, hodd, hNgt, ?_⟩
  have haU := ha.2.2 hodd
  have haL := (ha.1 hn0).2 hodd
  have hLv : L = (N - 1 / 2) * u := by
    rw [hs.pred (by omega) (Or.inr (by rw [ht]; omega)), hval, hq] at hL
    linarith
  by_cases hbu : b = (N + 1 / 2) * u
  · left
    have hab : a < b := by linarith
    refine ⟨hbu, hab, ?_⟩
    have h := above_mid (K := (2 * N + 1) * 2 ^ 52 - 1) (e := -1074 + k - 53) hb
      (by rw [abs_of_nonneg (by omega)]; omega) hab (by rw [u53, hbu]; push_cast; nlinarith)
    rw [u53, hbu] at h
    push_cast at h
    rw [hbu]
    linarith
  · right
    have hbl : b = L := by
      by_contra hc
      refine hin ⟨fun _ => ⟨by linarith, fun _ => ?_⟩, by linarith, fun _ => ?_⟩
      · have := lt_of_le_of_ne hbL (Ne.symm hc); linarith
      · have := lt_of_le_of_ne hbU hbu; linarith
    rw [hLv] at hbl
    have hab : b < a := by linarith
    refine ⟨hbl, hab, ?_⟩
    have h := below_mid (K := (2 * N - 1) * 2 ^ 52 + 1) (e := -1074 + k - 53) hb
      (by rw [abs_of_nonneg (by omega)]; omega) hab (by rw [u53, hbl]; push_cast; nlinarith)
    rw [u53, hbl] at h
    push_cast at h
    rw [hbl]
    linarith

/-- The largest double below a power of two. -/
theorem double_pred {c : ℕ} {s : Bool} {m : ℚ} (h : double.decode c = .num s m) {j : ℤ} (h1 : m < 2 ^ j) (h2 : (2 : ℚ) ^ j - 2 ^ (j - 53) ≤ m) :
    m = 2 ^ j - 2 ^ (j - 53) := by
  obtain ⟨n, hn, hm, -, -⟩ := double.code_of_decode h
  obtain ⟨k, N, hs⟩ := exists_split double hn
  have hv := hs.value
  rw [← hm, double_facts.1] at hv
  have hN := hs.lt
  rw [show double.t = 52 from rfl] at hN
  have hj : (2 : ℚ) ^ j = 2 ^ 53 * 2 ^ (j - 53) := by
    rw [← zpow_natCast, ← zpow_add₀ (by norm_num)]; congr 1; push_cast; ring
  rw [hj] at h1 h2 ⊢
  have hw : (0 : ℚ) < 2 ^ (j - 53) := by positivity
  refine le_antisymm ?_ h2
  rcases le_or_gt (j - 53) (-1074 + k) with h | h
  · obtain ⟨d, hd⟩ : ∃ d : ℕ, (-1074 + k : ℤ) = (j - 53) + d := ⟨(-1074 + k - (j - 53)).toNat, by omega⟩
    rw [hd, zpow_add₀ (by norm_num), zpow_natCast] at hv
    generalize (2 : ℚ) ^ (j - 53) = w at *
    have h3 : (N : ℚ) * 2 ^ d < 2 ^ 53 := by
      by_contra hc
      push Not at hc
      have : (2 : ℚ) ^ 53 * w ≤ N * 2 ^ d * w := by gcongr
      linarith
    have h4 : N * 2 ^ d < 2 ^ 53 := by exact_mod_cast h3
    have h5 : N * 2 ^ d + 1 ≤ 2 ^ 53 := h4
    have h6 : (N : ℚ) * 2 ^ d + 1 ≤ 2 ^ 53 := by exact_mod_cast h5
    have : ((N : ℚ) * 2 ^ d + 1) * w ≤ 2 ^ 53 * w := by gcongr
    linarith
  · have h3 : (2 : ℚ) ^ (-1074 + k : ℤ) ≤ 2 ^ (j - 53) := zpow_le_zpow_right₀ (by norm_num) (by omega)
    have h4 : (N : ℚ) + 1 ≤ 2 ^ 53 := by exact_mod_cast hN
    have h5 : (N : ℚ) * 2 ^ (-1074 + k : ℤ) ≤ N * 2 ^ (j - 53) := by gcongr
    have : ((N : ℚ) + 1) * 2 ^ (j - 53) ≤ 2 ^ 53 * 2 ^ (j - 53) := by gcongr
    linarith

/-- A number in the middle between two neighbouring 106-bit numbers, of which the upper is the middle between two
doubles. -/
theorem mid_up {N : ℕ} (h1 : 2 ^ 52 ≤ N) (h2 : N < 2 ^ 53) {q : ℤ} {a b : ℚ} (hb : RoundsToBits 106 a b)
    (ha : a = (N + 1 / 2) * (2 : ℚ) ^ q - 2 ^ (q - 54)) : b = (N + 1 / 2) * (2 : ℚ) ^ q := by
  obtain ⟨u1, u53, u54⟩ := unit_half q
  set u : ℚ := (2 : ℚ) ^ q with hu
  have hu0 : 0 < u := by positivity
  have hN1 : (2 : ℚ) ^ 52 ≤ N := by exact_mod_cast h1
  have hN2 : (N : ℚ) + 1 ≤ 2 ^ 53 := by exact_mod_cast h2
  rw [u54] at ha
  have hup := le_of_le (K := 2 * N + 1) (e := q - 1) hb (by rw [abs_of_nonneg (by positivity)]; omega)
    (by rw [u1, ha]; push_cast; linarith)
  rw [u1] at hup; push_cast at hup
  have hdn := ge_of_ge (K := (2 * N + 1) * 2 ^ 52 - 1) (e := q - 53) hb (by rw [abs_of_nonneg (by omega)]; omega)
    (by rw [u53, ha]; push_cast; linarith)
  rw [u53] at hdn; push_cast at hdn
  obtain ⟨⟨K, e, hK, hKe⟩, -, htie⟩ := hb
  have hQ' : ((9007199254740992 * N + 4503599627370495 : ℕ) : ℚ) = (2 * N + 1) * 2 ^ 52 - 1 := by push_cast; ring
  generalize hQ : 9007199254740992 * N + 4503599627370495 = Q at hQ'
  have hg := grid_gap (p := 106) (q := Q) (j := q - 53) (by omega) (by omega) hK (e := e)
  rw [← hKe, u53, hQ'] at hg
  rcases hg with hg | hg
  · exfalso
    have hbv : b = ((2 * N + 1) * 2 ^ 52 - 1) * (u / 2 ^ 53) := le_antisymm hg hdn
    have ha0 : 0 < a := by
      rw [ha]
      have : (2 : ℚ) ^ 52 * u ≤ N * u := by gcongr
      norm_num at this ⊢
      linarith
    obtain ⟨j, hj⟩ := htie (2 * N + 1) (q - 1) (by rw [abs_of_nonneg (by positivity)]; omega)
      (by rw [u1, hbv]; push_cast; intro hc; linarith) (by
        rw [u1, hbv, ha]; push_cast
        rw [abs_of_pos (by linarith), abs_of_neg (by linarith)]; ring) (q - 53) (by
        rw [abs_of_pos ha0, u53, ha]
        have : (2 : ℚ) ^ 52 * u ≤ N * u := by gcongr
        norm_num at this ⊢
        linarith) (by
        rw [abs_of_pos ha0, u53, ha]
        have : ((N : ℚ) + 1) * u ≤ 2 ^ 53 * u := by gcongr
        norm_num at this ⊢
        linarith)
    rw [u53, hbv] at hj
    have h3 : ((2 * N + 1) * 2 ^ 52 - 1 : ℚ) = 2 * j := mul_right_cancel₀ (b := u / 2 ^ 53) (by positivity) hj
    have h4 : (2 * (N : ℤ) + 1) * 2 ^ 52 - 1 = 2 * j := by
      have h5 : (((2 * (N : ℤ) + 1) * 2 ^ 52 - 1 : ℤ) : ℚ) = ((2 * j : ℤ) : ℚ) := by
        rw [Int.cast_sub, Int.cast_mul, Int.cast_add, Int.cast_mul, Int.cast_mul, Int.cast_pow, Int.cast_natCast]
        exact h3
      exact Int.cast_injective h5
    omega
  · linarith

theorem mid_down {N : ℕ} (h1 : 2 ^ 52 < N) (h2 : N < 2 ^ 53) {q : ℤ} {a b : ℚ} (hb : RoundsToBits 106 a b)
    (ha : a = (N - 1 / 2) * (2 : ℚ) ^ q + 2 ^ (q - 54)) : b = (N - 1 / 2) * (2 : ℚ) ^ q := by
  obtain ⟨u1, u53, u54⟩ := unit_half q
  set u : ℚ := (2 : ℚ) ^ q with hu
  have hu0 : 0 < u := by positivity
  have hN1 : (2 : ℚ) ^ 52 + 1 ≤ N := by exact_mod_cast h1
  have hN2 : (N : ℚ) + 1 ≤ 2 ^ 53 := by exact_mod_cast h2
  rw [u54] at ha
  have hdn := ge_of_ge (K := 2 * N - 1) (e := q - 1) hb (by rw [abs_of_nonneg (by omega)]; omega)
    (by rw [u1, ha]; push_cast; linarith)
  rw [u1] at hdn; push_cast at hdn
  have hup := le_of_le (K := (2 * N - 1) * 2 ^ 52 + 1) (e := q - 53) hb (by rw [abs_of_nonneg (by omega)]; omega)
    (by rw [u53, ha]; push_cast; linarith)
  rw [u53] at hup; push_cast at hup
  obtain ⟨⟨K, e, hK, hKe⟩, -, htie⟩ := hb
  have hg := grid_gap (p := 106) (q := (2 * N - 1) * 2 ^ 52) (j := q - 53) (by omega) (by omega) hK (e := e)
  rw [← hKe, u53] at hg
  push_cast [Nat.cast_sub (show 1 ≤ 2 * N by omega)] at hg
  rcases hg with hg | hg
  · linarith
  · exfalso
    have hbv : b = ((2 * N - 1) * 2 ^ 52 + 1) * (u / 2 ^ 53) := le_antisymm hup hg
    have ha0 : 0 < a := by
      rw [ha]
      have : ((2 : ℚ) ^ 52 + 1) * u ≤ N * u := by gcongr
      norm_num at this ⊢
      linarith
    obtain ⟨j, hj⟩ := htie (2 * N - 1) (q - 1) (by rw [abs_of_nonneg (by omega)]; omega)
      (by rw [u1, hbv]; push_cast; intro hc; linarith) (by
        rw [u1, hbv, ha]; push_cast
        rw [abs_of_neg (by linarith), abs_of_pos (by linarith)]; ring) (q - 53) (by
        rw [abs_of_pos ha0, u53, ha]
        have : ((2 : ℚ) ^ 52 + 1) * u ≤ N * u := by gcongr
        norm_num at this ⊢
        linarith) (by
        rw [abs_of_pos ha0, u53, ha]
        have : ((N : ℚ) + 1) * u ≤ 2 ^ 53 * u := by gcongr
        norm_num at this ⊢
        linarith)
    rw [u53, hbv] at hj
    have h3 : ((2 * N - 1) * 2 ^ 52 + 1 : ℚ) = 2 * j := mul_right_cancel₀ (b := u / 2 ^ 53) (by positivity) hj
    have h4 : (2 * (N : ℤ) - 1) * 2 ^ 52 + 1 = 2 * j := by exact_mod_cast h3
    omega

end GoFloat.Float128ppc
