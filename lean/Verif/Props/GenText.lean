import Verif.Proofs.Sample
import Verif.Proofs.BigString
import Verif.Props.Gen
/-
Property C84: the texts of 35 digits in the generated tests of binary128.
-/
namespace GoFloat
open Spec Strconv

namespace Binary128.Gen

/-- The range of the numbers of binary128. -/
theorem quad_range {c : ℕ} {s : Bool} {m : ℚ} (h : quad.decode c = .num s m) (h0 : m ≠ 0) :
    (2 : ℚ) ^ (-16494 : ℤ) ≤ m ∧ m < (2 : ℚ) ^ (16384 : ℤ) := by
  obtain ⟨n, hn, hm, -, -⟩ := quad.code_of_decode h
  have hb : quad.bias = 16383 := by decide
  have hq : quad.qmin = -16494 := by decide
  constructor
  · obtain ⟨k, N, hk, hN1, hN2⟩ := quad.code_split n
    have h1 := quad.magc_eq hN1.le hN2
    rw [← hk, ← hm, hq] at h1
    have hN : (1 : ℚ) ≤ N := by
      have : N ≠ 0 := by
        rintro rfl
        rw [h1] at h0
        simp at h0
      exact_mod_cast Nat.one_le_iff_ne_zero.2 this
    rw [h1]
    calc (2 : ℚ) ^ (-16494 : ℤ) ≤ 2 ^ (-16494 + (k : ℤ)) := zpow_le_zpow_right₀ (by norm_num) (by omega)
      _ ≤ _ := le_mul_of_one_le_left (by positivity) hN
  · have := magc_lt_max quad (by decide) hn
    rw [← hm, hb] at this
    exact this

/-- The numbers of binary128 have at most 113 bits. -/
theorem quad_bits {c : ℕ} {s : Bool} {m : ℚ} (h : quad.decode c = .num s m) : ∃ (N : ℕ) (a : ℤ), N < 2 ^ 113 ∧ m = N * 2 ^ a := by
  obtain ⟨n, hn, hm, -, -⟩ := quad.code_of_decode h
  obtain ⟨k, N, hk, hN1, hN2⟩ := quad.code_split n
  have h1 := quad.magc_eq hN1.le hN2
  rw [← hk, ← hm] at h1
  exact ⟨N, _, hN1, h1⟩

theorem rounded_near {m V : ℚ} (h : RoundedDigits 35 m V) : |V - m| ≤ m * (1 / (2 * 10 ^ 34)) := by
  obtain ⟨k, e, h1, -, ⟨h2, -⟩, rfl⟩ := h
  have he : (0 : ℚ) < (10 : ℚ) ^ e := by positivity
  have hm : m = m / (10 : ℚ) ^ e * (10 : ℚ) ^ e := (div_mul_cancel₀ _ he.ne').symm
  have h3 : |(k : ℚ) * (10 : ℚ) ^ e - m| = |m / (10 : ℚ) ^ e - k| * (10 : ℚ) ^ e := by
    rw [abs_sub_comm, ← abs_of_pos he, ← abs_mul, abs_of_pos he, sub_mul, ← hm]
  rw [h3]
  have h4 : |m / (10 : ℚ) ^ e - k| * (10 : ℚ) ^ e ≤ 1 / 2 * (10 : ℚ) ^ e := mul_le_mul_of_nonneg_right (by simpa using h2) he.le
  have h5 : (10 : ℚ) ^ 34 * (10 : ℚ) ^ e ≤ m := by
    rw [le_div_iff₀ he] at h1
    simpa using h1
  refine h4.trans ?_
  rw [mul_one_div, le_div_iff₀ (by norm_num)]
  linarith

/-- Rounding to 35 digits a number that has no more. -/
theorem rounded_exact {m V : ℚ} (h : RoundedDigits 35 m V) {k : ℕ} {e : ℤ} (hk : k < 10 ^ 35) (hm : m = k * (10 : ℚ) ^ e) : V = m := by
  obtain ⟨k', e', h1, -, ⟨h2, -⟩, rfl⟩ := h
  have hp : (0 : ℚ) < (10 : ℚ) ^ e' := by positivity
  have hle : e' ≤ e := by
    by_contra hc
    rw [le_div_iff₀ hp, hm] at h1
    have h3 : (10 : ℚ) * (10 : ℚ) ^ e ≤ (10 : ℚ) ^ e' := by
      rw [← zpow_one_add₀ (by norm_num)]
      exact zpow_le_zpow_right₀ (by norm_num) (by omega)
    have h4 : (0 : ℚ) < (10 : ℚ) ^ e := by positivity
    have h5 : (k : ℚ) < 10 ^ 35 := by exact_mod_cast hk
    have h6 := mul_lt_mul_of_pos_right h5 h4
    norm_num at h1 h6
    linarith
  obtain ⟨j, rfl⟩ : ∃ j : ℕ, e = e' + j := ⟨(e - e').toNat, by omega⟩
  have hq : m / (10 : ℚ) ^ e' = ((k * 10 ^ j : ℕ) : ℤ) := by
    rw [hm, zpow_add₀ (by norm_num), zpow_natCast]
    push_cast
    field_simp
  rw [hq] at h2
  have h3 : ((k * 10 ^ j : ℕ) : ℤ) = (k' : ℤ) := by
    have h4 : |((((k * 10 ^ j : ℕ) : ℤ) - (k' : ℤ) : ℤ) : ℚ)| < 1 := by
      have h2' : |((((k * 10 ^ j : ℕ) : ℤ) - (k' : ℤ) : ℤ) : ℚ)| ≤ 1 / 2 := by
        rw [Int.cast_sub]
        simpa using h2
      linarith
    have h5 : |((k * 10 ^ j : ℕ) : ℤ) - (k' : ℤ)| < 1 := by exact_mod_cast h4
    have := Int.abs_lt_one_iff.1 h5
    omega
  rw [← div_mul_cancel₀ m hp.ne', hq, h3]
  rfl

/-- The numbers of the text: where the point is. -/
theorem point_range {ds : List ℕ} {dp : ℤ} (h : NormalDec ds dp) (hne : ds ≠ []) {m : ℚ} (h1 : (2 : ℚ) ^ (-16494 : ℤ) ≤ m) (h2 : m < (2 : ℚ) ^ (16384 : ℤ))
    (h3 : |decValue ds dp - m| ≤ m * (1 / (2 * 10 ^ 34))) : -6000 ≤ dp ∧ dp ≤ 6000 := by
  obtain ⟨p1, p2⟩ := decValue_pos h hne
  have hm : 0 < m := lt_of_lt_of_le (by positivity) h1
  have h4 := abs_le.1 h3
  have h5 : m * (1 / (2 * 10 ^ 34)) ≤ m * (1 / 2) := mul_le_mul_of_nonneg_left (by norm_num) hm.le
  have key : ∀ k : ℕ, (2 : ℚ) ^ (3 * k : ℤ) ≤ (10 : ℚ) ^ (k : ℤ) := by
    intro k
    rw [zpow_mul, zpow_natCast, zpow_natCast]
    exact pow_le_pow_left₀ (by norm_num) (by norm_num) _
  constructor
  · by_contra hc
    have e1 : (10 : ℚ) ^ dp ≤ (10 : ℚ) ^ (-((5600 : ℕ) : ℤ)) := zpow_le_zpow_right₀ (by norm_num) (by omega)
    have e2 : (10 : ℚ) ^ (-((5600 : ℕ) : ℤ)) ≤ (2 : ℚ) ^ (-(3 * (5600 : ℕ) : ℤ)) := by
      rw [zpow_neg, zpow_neg]
      exact inv_anti₀ (by positivity) (key 5600)
    have e3 : (2 : ℚ) ^ (-(3 * (5600 : ℕ) : ℤ)) ≤ (2 : ℚ) ^ ((-16494 : ℤ) - 1) := zpow_le_zpow_right₀ (by norm_num) (by norm_num)
    have e4 : (2 : ℚ) ^ ((-16494 : ℤ) - 1) = 2 ^ (-16494 : ℤ) * (1 / 2) := by rw [zpow_sub_one₀ (by norm_num)]; norm_num
    rw [e4] at e3
    clear e4 h2
    generalize (2 : ℚ) ^ (-16494 : ℤ) = A at *
    generalize (2 : ℚ) ^ (-(3 * (5600 : ℕ) : ℤ)) = B at *
    generalize (10 : ℚ) ^ (-((5600 : ℕ) : ℤ)) = C at *
    linarith [h4.1]
  · by_contra hc
    have e1 : (10 : ℚ) ^ ((5600 : ℕ) : ℤ) ≤ (10 : ℚ) ^ (dp - 1) := zpow_le_zpow_right₀ (by norm_num) (by omega)
    have e2 := key 5600
    have e3 : (2 : ℚ) ^ ((16384 : ℤ) + 1) ≤ (2 : ℚ) ^ (3 * (5600 : ℕ) : ℤ) := zpow_le_zpow_right₀ (by norm_num) (by norm_num)
    have e4 : (2 : ℚ) ^ ((16384 : ℤ) + 1) = 2 ^ (16384 : ℤ) * 2 := zpow_add_one₀ (by norm_num) _
    rw [e4] at e3
    clear e4 h1
    generalize (2 : ℚ) ^ (16384 : ℤ) = A at *
    generalize (2 : ℚ) ^ (3 * (5600 : ℕ) : ℤ) = B at *
    generalize (10 : ℚ) ^ ((5600 : ℕ) : ℤ) = C at *
    linarith [h4.2]

theorem big_num (f : Float) {s : Bool} {m : ℚ} (h : quad.decode f.code = .num s m) :
    ∃ x, f.big = .ok (x, false) ∧ x.WF ∧ x.datum = .num s m := by
  obtain ⟨x, nan, hbig, -, -, -, hwf, hdec⟩ := big_spec f
  rw [h] at hdec
  obtain ⟨rfl, hd⟩ : nan = false ∧ x.datum = .num s m := hdec
  exact ⟨x, hbig, hwf, hd⟩

/-- C84: the text of a number of binary128 with 35 digits: it denotes the number rounded to 35 significant digits, half to even,
with the sign of the number. -/
theorem C84_text (f : Float) {s : Bool} {m : ℚ} (h : quad.decode f.code = .num s m) : ∃ x V, f.big = .ok (x, false) ∧
    readDecimal (x.textG 35) = some (s, V) ∧ (m = 0 → V = 0) ∧ (m ≠ 0 → RoundedDigits 35 m V) := by
  obtain ⟨x, h1, h2, h3⟩ := big_num f h
  obtain ⟨ds, dp, g1, g2, -, g4, g5⟩ := textG_spec h2 h3 (n := 35) (by norm_num)
  refine ⟨x, decValue ds dp, h1, ?_, fun h0 => ?_, g5⟩
  · rw [g2]
    exact gText_read s g1 35
  · rw [g4.2 h0]
    simp [decValue]

example := C84_text ⟨0xBFFF600000000000, 0⟩ Sample.x_quad

/-- Numbers of at most 113 bits and at most 35 decimal digits. -/
def Short (m : ℚ) : Prop := (∃ (N : ℕ) (a : ℤ), N < 2 ^ 113 ∧ m = N * 2 ^ a) ∧ ∃ (k : ℕ) (e : ℤ), k < 10 ^ 35 ∧ m = k * (10 : ℚ) ^ e

theorem setString_read {z : BigFloat} (hzp : z.prec = 113) (hzm : z.mode = .toNearestEven) {x : BigFloat} (hx : x.WF) {s : Bool} {m : ℚ}
    (hd : x.datum = .num s m) (hm : 0 ≤ m) (hr : m ≠ 0 → (2 : ℚ) ^ (-16494 : ℤ) ≤ m ∧ m < (2 : ℚ) ^ (16384 : ℤ)) :
    ∃ w v, z.setString (x.textG 35) = some w ∧ w.WF ∧ w.datum = .num s v ∧ (m = 0 → v = 0) ∧ (m ≠ 0 → |v - m| < m / 2 ^ 112) ∧
      (Short m → v = m) := by
  obtain ⟨ds, dp, g1, g2, g3, g4, g5⟩ := textG_spec hx hd (n := 35) (by norm_num)
  obtain ⟨r, r1, r2, r3, r4, r5, r6⟩ := scanDecimal_gText s g1 (n := 35) g3
  rw [g2]
  by_cases h0 : m = 0
  · have hV : decValue ds dp = 0 := by rw [g4.2 h0]; simp [decValue]
    have hr0 : r.mant = 0 := by
      rw [hV] at r3
      have : (10 : ℚ) ^ (r.exp - r.frac) ≠ 0 := by positivity
      exact_mod_cast (mul_eq_zero.1 r3).resolve_right this
    refine ⟨{ z with neg := r.neg, prec := 113, acc := .exact, form := .zero, mant := 0 }, 0, ?_, ?_, ?_, fun _ => rfl, fun h => absurd h0 h, fun _ => h0.symm⟩
    · unfold BigFloat.setString
      rw [r1]
      dsimp only
      rw [if_pos hr0, if_neg (by omega), hzp]
    · refine ⟨?_, ?_, ?_, ?_, ?_, ?_⟩
      · show 113 ≤ BigFloat.MaxPrec
        decide
      all_goals (intro h; cases h)
    · show Datum.num r.neg 0 = _
      rw [r2]
  · have hpos : 0 < m := lt_of_le_of_ne hm (Ne.symm h0)
    have hne : ds ≠ [] := fun h => h0 (g4.1 h)
    obtain ⟨a1, a2⟩ := hr h0
    have hV := rounded_near (g5 h0)
    obtain ⟨p1, p2⟩ := point_range g1 hne a1 a2 hV
    have hr0 : 0 < r.mant := by
      rcases Nat.eq_zero_or_pos r.mant with h | h
      · rw [h] at r3
        have := (decValue_pos g1 hne).1
        rw [← r3] at this
        have h9 : (0 : ℚ) < (10 : ℚ) ^ (dp - 1) := by positivity
        simp at this
        linarith
      · exact h
    obtain ⟨w, w1, w2, w3, w4, -, w6, w7⟩ := BigFloat.setString_near hzp hzm r1 hr0 r4 (by omega) (by omega)
    rw [r3] at w6 w7
    refine ⟨w, w.mag, w1, w2, ?_, fun h => absurd h h0, fun _ => ?_, fun ⟨⟨N, a, hN, hNa⟩, k, e, hk, hke⟩ => by
      rw [hNa]
      exact w7 N a hN (by rw [rounded_exact (g5 h0) hk hke, hNa])⟩
    · rw [BigFloat.datum_finite w3, w4, r2]
    · have := BigFloat.chain (by norm_num) w6 hV
      have hnum : (1 / 2 ^ 113 + 1 / 2 ^ 115 + 1 / 2 ^ 140 + 1 / (2 * 10 ^ 34) + (1 / 2 ^ 113 + 1 / 2 ^ 115 + 1 / 2 ^ 140) * (1 / (2 * 10 ^ 34)) : ℚ) < 1 / 2 ^ 112 := by
        norm_num
      calc _ ≤ _ := this
        _ < m * (1 / 2 ^ 112) := mul_lt_mul_of_pos_left hnum hpos
        _ = m / 2 ^ 112 := by rw [mul_one_div]

/-- C84: reading such a text with 113 bits of precision yields a number with the same sign that differs by less than
a part in 2^112; the same number, if it has no more than 35 significant digits. -/
theorem C84_read (f : Float) {s : Bool} {m : ℚ} (h : quad.decode f.code = .num s m) (z : BigFloat) (hz : z.prec = 113)
    (hz2 : z.mode = .toNearestEven) : ∃ x w v, f.big = .ok (x, false) ∧ z.setString (x.textG 35) = some w ∧ w.datum = .num s v ∧
    (m = 0 → v = 0) ∧ (m ≠ 0 → |v - m| < m / 2 ^ 112) ∧
    ((∃ (k : ℕ) (e : ℤ), k < 10 ^ 35 ∧ m = k * (10 : ℚ) ^ e) → v = m) := by
  obtain ⟨x, h1, h2, h3⟩ := big_num f h
  obtain ⟨n, hn, hm, -⟩ := quad.code_of_decode h
  obtain ⟨w, v, w1, w2, w3, w4, w5, w6⟩ := setString_read hz hz2 h2 h3 (by rw [hm]; exact quad.magc_nonneg n) (quad_range h)
  exact ⟨x, w, v, h1, w1, w3, w4, w5, fun h9 => w6 ⟨quad_bits h, h9⟩⟩

example := C84_read ⟨0xBFFF600000000000, 0⟩ Sample.x_quad ⟨113, .toNearestEven, .exact, .zero, false, 0, 0⟩ rfl rfl

/-! ### The comparisons -/

/-- A double, as a natural number of at most 53 bits times a power of two. -/
theorem double_form {c : ℕ} {s : Bool} {r : ℚ} (h : double.decode c = .num s r) : ∃ (M : ℕ) (q : ℤ), M < 2 ^ 53 ∧ r = M * (2 : ℚ) ^ q ∧ -1074 ≤ q := by
  obtain ⟨n, -, hm, -, -⟩ := double.code_of_decode h
  obtain ⟨k, N, hk, hN1, hN2⟩ := double.code_split n
  have h1 := double.magc_eq hN1.le hN2
  rw [← hk, ← hm, double_facts.1] at h1
  exact ⟨N, _, hN1, h1, by omega⟩

/-- A number of 113 bits of which the last 60 are not 0, 1 or 2^60 - 1 is not close to a double. -/
theorem sep_normal {N : ℕ} {e : ℤ} (h1 : 2 ^ 112 ≤ N) (h2 : N < 2 ^ 113) (h3 : N % 2 ^ 60 ≠ 0) (h4 : N % 2 ^ 60 ≠ 1) (h5 : N % 2 ^ 60 ≠ 2 ^ 60 - 1)
    {c : ℕ} {s : Bool} {r : ℚ} (hr : double.decode c = .num s r) : N * (2 : ℚ) ^ e / 2 ^ 112 ≤ |r - N * (2 : ℚ) ^ e| := by
  obtain ⟨M, q, hM, rfl, -⟩ := double_form hr
  have he : (0 : ℚ) < (2 : ℚ) ^ e := by positivity
  have hlt : (N : ℚ) * (2 : ℚ) ^ e / 2 ^ 112 ≤ 2 * (2 : ℚ) ^ e := by
    have : (N : ℚ) < 2 ^ 113 := by exact_mod_cast h2
    rw [div_le_iff₀ (by positivity), mul_assoc, mul_comm ((2 : ℚ) ^ e), ← mul_assoc]
    refine mul_le_mul_of_nonneg_right ?_ he.le
    rw [show (2 : ℚ) * 2 ^ 112 = 2 ^ 113 by norm_num]
    exact this.le
  refine hlt.trans ?_
  by_cases hq : e + 60 ≤ q
  · obtain ⟨j, hj⟩ : ∃ j : ℕ, q = e + 60 + j := ⟨(q - e - 60).toNat, by omega⟩
    have e1 : (M : ℚ) * (2 : ℚ) ^ q - N * (2 : ℚ) ^ e = ((((M * 2 ^ j : ℕ) : ℤ) * 2 ^ 60 - (N : ℤ) : ℤ) : ℚ) * (2 : ℚ) ^ e := by
      rw [hj, zpow_add₀ (by norm_num), zpow_add₀ (by norm_num), zpow_natCast]
      push_cast
      ring
    rw [e1, abs_mul, abs_of_pos he]
    refine mul_le_mul_of_nonneg_right ?_ he.le
    have : 2 ≤ |((M * 2 ^ j : ℕ) : ℤ) * 2 ^ 60 - (N : ℤ)| := by
      generalize M * 2 ^ j = K
      rw [le_abs]
      omega
    exact_mod_cast this
  · have hle : (M : ℚ) * (2 : ℚ) ^ q ≤ 2 ^ 112 * (2 : ℚ) ^ e := by
      have hM' : (M : ℚ) ≤ 2 ^ 53 := by exact_mod_cast hM.le
      calc (M : ℚ) * (2 : ℚ) ^ q ≤ 2 ^ 53 * (2 : ℚ) ^ (e + 59) := mul_le_mul hM' (zpow_le_zpow_right₀ (by norm_num) (by omega)) (by positivity) (by positivity)
        _ = 2 ^ 112 * (2 : ℚ) ^ e := by
          rw [zpow_add₀ (by norm_num), show (2 : ℚ) ^ (59 : ℤ) = 2 ^ 59 by norm_cast]
          ring
    have h6 : 2 ^ 112 + 2 ≤ N := by omega
    have h7 : ((2 : ℚ) ^ 112 + 2) ≤ N := by exact_mod_cast h6
    have h8 := mul_le_mul_of_nonneg_right h7 he.le
    rw [abs_sub_comm]
    refine le_trans ?_ (le_abs_self _)
    linarith

/-- Numbers smaller than the doubles. -/
theorem sep_small {m : ℚ} (h0 : 0 < m) (h : m < (2 : ℚ) ^ (-1075 : ℤ)) {c : ℕ} {s : Bool} {r : ℚ} (hr : double.decode c = .num s r) :
    m / 2 ^ 112 ≤ |r - m| := by
  have h1 : m / 2 ^ 112 ≤ m := div_le_self h0.le (by norm_num)
  refine h1.trans ?_
  obtain ⟨N, rfl, -⟩ := double_multiple hr
  rcases Nat.eq_zero_or_pos N with rfl | hN
  · simp [abs_of_pos h0]
  · have hN' : (1 : ℚ) ≤ N := by exact_mod_cast hN
    have h2 : (2 : ℚ) ^ (-1074 : ℤ) = 2 ^ (-1075 : ℤ) * 2 := by rw [← zpow_add_one₀ (by norm_num)]; rfl
    have h3 : (2 : ℚ) ^ (-1074 : ℤ) ≤ N * (2 : ℚ) ^ (-1074 : ℤ) := le_mul_of_one_le_left (by positivity) hN'
    refine le_trans ?_ (le_abs_self _)
    generalize (N : ℚ) * (2 : ℚ) ^ (-1074 : ℤ) = X at *
    generalize (2 : ℚ) ^ (-1074 : ℤ) = Y at *
    generalize (2 : ℚ) ^ (-1075 : ℤ) = Z at *
    linarith

theorem cmp_inf_num {x y : BigFloat} (hx : x.form = .inf) (hy : y.form ≠ .inf) : x.cmp y = if x.neg then .lt else .gt := by
  unfold BigFloat.cmp
  have h1 : x.ord = if x.neg then -2 else 2 := by unfold BigFloat.ord; rw [hx]
  have h2 : y.ord = -1 ∨ y.ord = 0 ∨ y.ord = 1 := by
    unfold BigFloat.ord
    cases hf : y.form with
    | inf => exact absurd hf hy
    | zero => simp
    | finite => cases y.neg <;> simp
  rw [h1]
  cases x.neg
  · dsimp only
    rw [if_neg (by simp; omega), if_pos (by simp; omega)]
    rfl
  · dsimp only
    rw [if_pos (by simp; omega)]
    rfl

/-- The comparison with a number close to `m` is the comparison with `m`. -/
theorem accurate_of {acc : Accuracy} {y w : BigFloat} {d : Datum} {s : Bool} {m v : ℚ} (hy : y.WF) (hd : y.datum = d) (hw : w.WF)
    (hwd : w.datum = .num s v) (hv0 : m = 0 → v = 0) (hv : m ≠ 0 → |v - m| < m / 2 ^ 112) (hacc : AccuracyTrue acc d (.num s m))
    (hsep : ∀ s' r, d = .num s' r → s' = s ∧ (m ≠ 0 → v = m ∨ m / 2 ^ 112 ≤ |r - m|)) : accurate acc y w = true := by
  obtain ⟨w1, w2, w3⟩ := BigFloat.sval_of_datum hw hwd
  obtain ⟨a, b, ka, kb, kk⟩ := hacc
  cases d with
  | nan t => cases ka
  | inf t =>
    obtain ⟨hf, hn⟩ : y.form = .inf ∧ y.neg = t := by
      unfold BigFloat.datum at hd
      cases hf : y.form with
      | inf => rw [hf] at hd; injection hd with hd; exact ⟨rfl, hd⟩
      | zero => rw [hf] at hd; cases hd
      | finite => rw [hf] at hd; cases hd
    have hc := cmp_inf_num hf w2
    rw [hn] at hc
    simp only [Datum.key, Option.some.injEq] at ka kb
    subst ka kb
    unfold accurate
    rw [hc]
    cases t <;> cases acc <;> simp_all [keyLt]
  | num t r =>
    obtain ⟨rfl, hse⟩ := hsep t r rfl
    obtain ⟨y1, y2, y3⟩ := BigFloat.sval_of_datum hy hd
    obtain ⟨c1, c2, c3⟩ := BigFloat.cmp_spec hy hw y2 w2
    rw [y1, w1] at c1 c2 c3
    simp only [Datum.key, Option.some.injEq] at ka kb
    subst ka kb
    have key : (signed t r < signed t m → signed t r < signed t v) ∧ (signed t m < signed t r → signed t v < signed t r) ∧
        (signed t r = signed t m → signed t r = signed t v) := by
      by_cases h0 : m = 0
      · rw [h0, hv0 h0]
        exact ⟨id, id, id⟩
      rcases hse h0 with rfl | e2
      · exact ⟨id, id, id⟩
      · have e1 := abs_lt.1 (hv h0)
        have e3 : ∀ {x y : ℚ}, x < y → signed t x < signed t y ∨ signed t y < signed t x := by
          intro x y h
          unfold signed
          cases t <;> simp [h]
        have e4 : |v - m| < |r - m| := (hv h0).trans_le e2
        have e5 : r ≠ m := by
          rintro rfl
          rw [sub_self, abs_zero] at e4
          exact absurd e4 (not_lt.2 (abs_nonneg _))
        unfold signed
        rw [abs_lt] at e4
        rcases lt_or_gt_of_ne e5 with h | h
        · rw [abs_of_neg (by linarith)] at e4
          cases t
          · simp only [Bool.false_eq_true, if_false]
            exact ⟨fun _ => by linarith [e4.1], fun h' => by linarith, fun h' => by linarith⟩
          · simp only [if_true]
            exact ⟨fun h' => by linarith, fun _ => by linarith [e4.1], fun h' => by linarith⟩
        · rw [abs_of_pos (by linarith)] at e4
          cases t
          · simp only [Bool.false_eq_true, if_false]
            exact ⟨fun h' => by linarith, fun _ => by linarith [e4.2], fun h' => by linarith⟩
          · simp only [if_true]
            exact ⟨fun _ => by linarith [e4.2], fun h' => by linarith, fun h' => by linarith⟩
    unfold accurate
    cases acc with
    | below =>
      have : signed t r < signed t m := by simpa [keyLt] using kk
      rw [c1.2 (key.1 this)]; rfl
    | above =>
      have : signed t m < signed t r := by simpa [keyLt] using kk
      rw [c2.2 (key.2.1 this)]; rfl
    | exact =>
      have : signed t r = signed t m := by simpa using kk
      rw [c3.2 (key.2.2 this)]; rfl

theorem roundsTo_sign {F : Format} {s : Bool} {m : ℚ} {c : ℕ} (h : F.RoundsTo s m c) : F.decode c = .inf s ∨ ∃ r, F.decode c = .num s r := by
  unfold Format.RoundsTo at h
  split at h
  · exact Or.inl h
  · obtain ⟨r, h1, -⟩ := h
    exact Or.inr ⟨r, h1⟩

/-- The checks of one row pass if the number of the row is zero or not close to a double. -/
theorem test_row {g : Row} (hp : g.Passes) {s : Bool} {m : ℚ} (hd : g.want.datum = .num s m) (hcode : quad.decode (newFromBits g.a g.b).code = .num s m)
    (hsep : m ≠ 0 → Short m ∨ ∀ c s' r, double.decode c = .num s' r → m / 2 ^ 112 ≤ |r - m|) : testNewFromBits g = .ok true := by
  obtain ⟨w64, p1, p2, p3, -, -⟩ := hp
  obtain ⟨x, x1, x2, x3⟩ := big_num _ hcode
  obtain rfl : g.want = x := by
    rw [p2] at x1
    injection x1 with x1
    exact (Prod.mk.inj x1).1
  obtain ⟨n, -, hm, -⟩ := quad.code_of_decode hcode
  obtain ⟨z, z1, z2, z3⟩ : ∃ z, newFloat 0 = .ok z ∧ (z.setPrec Binary128.precision).prec = 113 ∧
      (z.setPrec Binary128.precision).mode = .toNearestEven := ⟨_, rfl, by decide, by decide⟩
  obtain ⟨w, v, w1, w2, w3, w4, w5, w6⟩ := setString_read z2 z3 x2 hd (by rw [hm]; exact quad.magc_nonneg n) (quad_range hcode)
  obtain ⟨r64, acc64, q1, q2⟩ := C17_binary128_float64 (newFromBits g.a g.b)
  obtain ⟨r32, acc32, q3, q4⟩ := C17_binary128_float32 (newFromBits g.a g.b)
  rw [hcode] at q2 q4
  obtain ⟨rfl, rfl⟩ : w64 = r64 ∧ g.acc64 = acc64 := by
    rw [p3] at q1
    injection q1 with q1
    exact Prod.mk.inj q1
  have hn64 : F64.isNaN w64 = false := by
    rcases roundsTo_sign q2.1 with h | ⟨r, h⟩
    · exact Float128ppc.isNaN_false_of_inf h
    · exact Float128ppc.isNaN_false_of_num h
  obtain ⟨y64, a1, a2, a3, -⟩ := newFloat_spec w64 hn64
  have hw32 : double.decode (f32to64 r32).toNat = single.decode r32.toNat := (f32to64_decode r32).2 (by
    rintro ⟨t, ht⟩
    exact roundsTo_not_nan q4.1 t ht)
  have hn32 : F64.isNaN (f32to64 r32) = false := by
    rcases roundsTo_sign q4.1 with h | ⟨r, h⟩
    · exact Float128ppc.isNaN_false_of_inf (hw32.trans h)
    · exact Float128ppc.isNaN_false_of_num (hw32.trans h)
  obtain ⟨y32, b1, b2, b3, -⟩ := newFloat_spec _ hn32
  have k64 : accurate g.acc64 y64 w = true := accurate_of a3 a2 w2 w3 w4 w5 q2.2 (by
    intro s' r hr
    refine ⟨?_, fun h0 => (hsep h0).imp w6 fun h => h _ _ _ hr⟩
    rcases roundsTo_sign q2.1 with h | ⟨r, h⟩
    · rw [h] at hr; cases hr
    · rw [h] at hr; injection hr with h1 _; exact h1.symm)
  have k32 : accurate acc32 y32 w = true := accurate_of b3 b2 w2 w3 w4 w5 (by rw [hw32]; exact q4.2) (by
    intro s' r hr
    refine ⟨?_, fun h0 => (hsep h0).imp w6 fun h => h _ _ _ hr⟩
    rw [hw32] at hr
    rcases roundsTo_sign q4.1 with h | ⟨r, h⟩
    · rw [h] at hr; cases hr
    · rw [h] at hr; injection hr with h1 _; exact h1.symm)
  have ok_bind : ∀ {α β : Type} (a : α) (k : α → Go β), ((.ok a : Go α) >>= k) = k a := fun _ _ => rfl
  unfold testNewFromBits
  simp only [p2, p3, q3, z1, w1, a1, b1, ok_bind, p1, k64, k32, beq_self_eq_true, Bool.and_self]
  rfl

/-- The rows whose number is subnormal or has no more than 35 digits or whose last 60 bits are not 0, 1 or 2^60 - 1. -/
theorem test_ok {g : Row} (hp : g.Passes) (hd : g.want.datum = quad.decode (g.a.toNat * 2 ^ 64 + g.b.toNat)) {s : Bool} {m : ℚ}
    (hnum : quad.decode (g.a.toNat * 2 ^ 64 + g.b.toNat) = .num s m)
    (h : g.a.toNat % 2 ^ 63 < 2 ^ 48 ∨ (g.b.toNat % 2 ^ 60 ≠ 0 ∧ g.b.toNat % 2 ^ 60 ≠ 1 ∧ g.b.toNat % 2 ^ 60 ≠ 2 ^ 60 - 1) ∨
      ∃ (k : ℕ) (e : ℤ), k < 10 ^ 35 ∧ m = k * (10 : ℚ) ^ e) :
    testNewFromBits g = .ok true := by
  have hcode : quad.decode (newFromBits g.a g.b).code = .num s m := hnum
  refine test_row hp (hd.trans hnum) hcode ?_
  intro h0
  rw [← or_assoc] at h
  rcases h with h | h
  swap
  · exact Or.inl ⟨quad_bits hnum, h⟩
  refine Or.inr fun c s' r hr => ?_
  obtain ⟨n, hn, hm, hc, -⟩ := quad.code_of_decode hnum
  obtain ⟨k, N, hk, hN1, hN2⟩ := quad.code_split n
  have e1 := quad.magc_eq hN1.le hN2
  rw [← hk, ← hm] at e1
  have t1 : quad.t = 112 := rfl
  have t2 : quad.w = 15 := rfl
  rw [t1, t2] at hc
  rw [t1] at hk hN1 hN2
  have hq : quad.qmin = -16494 := by decide
  have hb := g.b.isLt
  norm_num only [Nat.add_eq] at hc hk hN1 hN2
  by_cases hN : 2 ^ 112 ≤ N
  · rw [e1]
    have hmod : N % 2 ^ 60 = g.b.toNat % 2 ^ 60 := by omega
    have hnot : ¬ g.a.toNat % 2 ^ 63 < 2 ^ 48 := by omega
    obtain ⟨h3, h4, h5⟩ := h.resolve_left hnot
    rw [← hmod] at h3 h4 h5
    exact sep_normal hN (by norm_num; omega) h3 h4 h5 hr
  · obtain rfl : k = 0 := by omega
    have hN0 : 0 < N := by
      rcases Nat.eq_zero_or_pos N with rfl | h
      · exact absurd (by rw [e1]; simp) h0
      · exact h
    rw [hq] at e1
    refine sep_small ?_ ?_ hr
    · rw [e1]; positivity
    · rw [e1]
      have h1 : (N : ℚ) < 2 ^ (112 : ℤ) := by
        have : N < 2 ^ 112 := by omega
        exact_mod_cast this
      calc (N : ℚ) * 2 ^ (-16494 + ((0 : ℕ) : ℤ)) < 2 ^ (112 : ℤ) * 2 ^ (-16494 + ((0 : ℕ) : ℤ)) := mul_lt_mul_of_pos_right h1 (by positivity)
        _ = (2 : ℚ) ^ ((112 : ℤ) + (-16494 + ((0 : ℕ) : ℤ))) := (zpow_add₀ (by norm_num) _ _).symm
        _ ≤ (2 : ℚ) ^ (-1075 : ℤ) := zpow_le_zpow_right₀ (by norm_num) (by norm_num)

/-- C84 as one would like it: whatever exponents and mantissas the generator draws, the generated test passes. -/
def C84_full : Prop := ∀ (exps : List ℕ) (mants : List MantBits), (∀ e ∈ exps, 1 ≤ e ∧ e ≤ 0x7FFE) → (∀ m ∈ mants, m.a.toNat < 2 ^ 48) →
  ∃ ns ds, getNormalized exps mants = .ok ns ∧ getDenormalized mants = .ok ds ∧ ∀ r ∈ ns ++ ds, testNewFromBits r = .ok true

/-- C84, the part that holds of the test. Whatever exponents and mantissas the generator draws, it does not panic, and the
checks of every row with a subnormal number pass, and the checks of every row with a normal number whose last 60 bits are not
0, 1 or 2^60 - 1, or that has no more than 35 significant decimal digits. Missing, because false: the other rows (`C84_false`). -/
theorem C84_test_partial (exps : List ℕ) (mants : List MantBits) (he : ∀ e ∈ exps, 1 ≤ e ∧ e ≤ 0x7FFE)
    (hm : ∀ m ∈ mants, m.a.toNat < 2 ^ 48) : ∃ ns ds, getNormalized exps mants = .ok ns ∧ getDenormalized mants = .ok ds ∧
    (∀ r ∈ ds, testNewFromBits r = .ok true) ∧
    (∀ r ∈ ns, r.b.toNat % 2 ^ 60 ≠ 0 → r.b.toNat % 2 ^ 60 ≠ 1 → r.b.toNat % 2 ^ 60 ≠ 2 ^ 60 - 1 → testNewFromBits r = .ok true) ∧
    ∀ r ∈ ns, (∃ (s : Bool) (k : ℕ) (e : ℤ), k < 10 ^ 35 ∧ quad.decode (r.a.toNat * 2 ^ 64 + r.b.toNat) = .num s (k * (10 : ℚ) ^ e)) →
      testNewFromBits r = .ok true := by
  obtain ⟨ns, ds, hn, hd, hp, en, ed⟩ := C68_binary128 exps mants he hm
  have num : ∀ (s e x : ℕ) (b : BitVec 64), s < 2 → e ≤ 0x7FFE → x < 2 ^ 48 →
      ∃ s' m, quad.decode ((s * 2 ^ 63 + e * 2 ^ 48 + x) * 2 ^ 64 + b.toNat) = .num s' m := by
    intro s e x b hs he hx
    have hb := b.isLt
    refine ⟨decide (s = 1), quad.magc (e * 2 ^ 112 + x * 2 ^ 64 + b.toNat), ?_⟩
    rw [← quad.decode_code]
    · congr 1
      unfold Format.signPart
      have : s = 0 ∨ s = 1 := by omega
      rcases this with rfl | rfl
      · simp; ring
      · simp only [decide_true, if_true]
        rw [show quad.t + quad.w = 127 from rfl]
        ring
    · show _ < (2 ^ 15 - 1) * 2 ^ 112
      omega
  refine ⟨ns, ds, hn, hd, ?_, ?_, ?_⟩
  · intro r hr
    obtain ⟨h1, h2⟩ := hp r (List.mem_append_right _ hr)
    have hx := List.mem_map_of_mem (f := fun r : Row => (r.a.toNat, r.b)) hr
    rw [ed] at hx
    simp only [List.mem_flatMap, List.mem_map, Prod.mk.injEq] at hx
    obtain ⟨s, hs, m, hm1, ha, hb⟩ := hx
    have hs2 : s < 2 := by simp at hs; omega
    have := hm m hm1
    obtain ⟨s', v, hv⟩ := num s 0 m.a.toNat r.b hs2 (Nat.zero_le _) this
    rw [zero_mul, add_zero, ha] at hv
    exact test_ok h1 h2 hv (Or.inl (by omega))
  · intro r hr c1 c2 c3
    obtain ⟨h1, h2⟩ := hp r (List.mem_append_left _ hr)
    have hx := List.mem_map_of_mem (f := fun r : Row => (r.a.toNat, r.b)) hr
    rw [en] at hx
    simp only [List.mem_flatMap, List.mem_map, Prod.mk.injEq] at hx
    obtain ⟨s, hs, e, he1, m, hm1, ha, hb⟩ := hx
    have hs2 : s < 2 := by simp at hs; omega
    obtain ⟨s', v, hv⟩ := num s e m.a.toNat r.b hs2 (he e he1).2 (hm m hm1)
    rw [ha] at hv
    exact test_ok h1 h2 hv (Or.inr (Or.inl ⟨c1, c2, c3⟩))
  · rintro r hr ⟨s, k, e, hk, hv⟩
    obtain ⟨h1, h2⟩ := hp r (List.mem_append_left _ hr)
    exact test_ok h1 h2 hv (Or.inr (Or.inr ⟨k, e, hk, rfl⟩))

example := C84_test_partial [1, 0x3FFF, 0x7FFE] [⟨0x555555555555, 0x5555555555555555⟩] (by decide) (by decide)

/-- What the comparison says. -/
theorem accurate_true {acc : Accuracy} {y w : BigFloat} {d : Datum} {s : Bool} {v : ℚ} (hy : y.WF) (hd : y.datum = d) (hw : w.WF)
    (hwd : w.datum = .num s v) (h : accurate acc y w = true) : AccuracyTrue acc d (.num s v) := by
  obtain ⟨w1, w2, w3⟩ := BigFloat.sval_of_datum hw hwd
  cases d with
  | nan t =>
    unfold BigFloat.datum at hd
    cases hf : y.form <;> rw [hf] at hd <;> cases hd
  | inf t =>
    obtain ⟨hf, hn⟩ : y.form = .inf ∧ y.neg = t := by
      unfold BigFloat.datum at hd
      cases hf : y.form with
      | inf => rw [hf] at hd; injection hd with hd; exact ⟨rfl, hd⟩
      | zero => rw [hf] at hd; cases hd
      | finite => rw [hf] at hd; cases hd
    have hc := cmp_inf_num hf w2
    rw [hn] at hc
    unfold accurate at h
    rw [hc] at h
    refine ⟨_, _, rfl, rfl, ?_⟩
    cases t <;> cases acc <;> simp_all [keyLt]
  | num t r =>
    obtain ⟨y1, y2, y3⟩ := BigFloat.sval_of_datum hy hd
    obtain ⟨c1, c2, c3⟩ := BigFloat.cmp_spec hy hw y2 w2
    rw [y1, w1] at c1 c2 c3
    refine ⟨_, _, rfl, rfl, ?_⟩
    unfold accurate at h
    cases acc with
    | below => simpa [keyLt] using c1.1 (by simpa using h)
    | above => simpa [keyLt] using c2.1 (by simpa using h)
    | exact => simpa using c3.1 (by simpa using h)

/-- C84: what it means that the checks of a row pass: the number of the row and the one that `Big` yields have the same 35
digits, `Float64` yields the wanted double and accuracy, and the accuracies of `Float64` and `Float32` are true of the number
read from the text of the row, which differs from the number of the row by less than a part in 2^112. -/
theorem C84_sound (g : Row) (hwf : g.want.WF) {c : ℕ} {s : Bool} {m : ℚ} (hd : g.want.datum = .num s m) (hc : quad.decode c = .num s m)
    (h : testNewFromBits g = .ok true) : ∃ x nan w r32 acc32 v, (newFromBits g.a g.b).big = .ok (x, nan) ∧
    x.textG 35 = g.want.textG 35 ∧ g.want64.eval = some w ∧ (newFromBits g.a g.b).float64 = .ok (w, g.acc64) ∧
    (newFromBits g.a g.b).float32 = .ok (r32, acc32) ∧ (m = 0 → v = 0) ∧ (m ≠ 0 → |v - m| < m / 2 ^ 112) ∧
    AccuracyTrue g.acc64 (double.decode w.toNat) (.num s v) ∧ AccuracyTrue acc32 (single.decode r32.toNat) (.num s v) := by
  obtain ⟨n, -, hm, -⟩ := quad.code_of_decode hc
  obtain ⟨z, z1, z2, z3⟩ : ∃ z, newFloat 0 = .ok z ∧ (z.setPrec Binary128.precision).prec = 113 ∧
      (z.setPrec Binary128.precision).mode = .toNearestEven := ⟨_, rfl, by decide, by decide⟩
  obtain ⟨wb, v, w1, w2, w3, w4, w5, -⟩ := setString_read z2 z3 hwf hd (by rw [hm]; exact quad.magc_nonneg n) (quad_range hc)
  have ok_bind : ∀ {α β : Type} (a : α) (k : α → Go β), ((.ok a : Go α) >>= k) = k a := fun _ _ => rfl
  have err_bind : ∀ {α β : Type} (e : Panic) (k : α → Go β), ((.error e : Go α) >>= k) = .error e := fun _ _ => rfl
  have nofloat : ∀ {w : F64}, F64.isNaN w = true → newFloat w = .error .errNaN := by
    intro w hw
    unfold newFloat
    rw [hw]
    rfl
  obtain ⟨r64, acc64, q1, -⟩ := C17_binary128_float64 (newFromBits g.a g.b)
  obtain ⟨r32, acc32, q3, -⟩ := C17_binary128_float32 (newFromBits g.a g.b)
  unfold testNewFromBits at h
  cases hb : (newFromBits g.a g.b).big with
  | error e => simp only [hb, err_bind] at h; cases h
  | ok p =>
    obtain ⟨x, nan⟩ := p
    simp only [hb, q1, q3, z1, w1, ok_bind] at h
    by_cases hn : F64.isNaN r64 = true
    · simp only [nofloat hn, err_bind] at h; cases h
    by_cases hn2 : F64.isNaN (f32to64 r32) = true
    · cases h1 : newFloat r64 with
      | error e => simp only [h1, err_bind] at h; cases h
      | ok y => simp only [h1, ok_bind, nofloat hn2, err_bind] at h; cases h
    obtain ⟨y64, a1, a2, a3, -⟩ := newFloat_spec r64 (by simpa using hn)
    obtain ⟨y32, b1, b2, b3, -⟩ := newFloat_spec (f32to64 r32) (by simpa using hn2)
    simp only [a1, b1, ok_bind] at h
    have h' : _ = true := Except.ok.inj h
    simp only [Bool.and_eq_true, beq_iff_eq] at h'
    obtain ⟨⟨⟨⟨k1, k2⟩, k3⟩, k4⟩, k5⟩ := h'
    rw [← k3] at q1 k4
    have hd32 : double.decode (f32to64 r32).toNat = single.decode r32.toNat := (f32to64_decode r32).2 (by
      rintro ⟨t, ht⟩
      exact hn2 ((isNaN64_iff _).2 ⟨t, (f32to64_decode r32).1 t ht⟩))
    refine ⟨x, nan, r64, r32, acc32, v, rfl, k1.symm, k2, q1, q3, w4, w5, accurate_true a3 a2 w2 w3 k4, ?_⟩
    exact accurate_true b3 (b2.trans hd32) w2 w3 k5

/-- Do the checks of the rows with normal numbers pass? -/
def normalizedOk (exps : List ℕ) (mants : List MantBits) : Bool :=
  match getNormalized exps mants with
  | .ok ns => ns.all fun r => match testNewFromBits r with
    | .ok b => b
    | .error _ => false
  | .error _ => false

/-- The generated test fails for 1000 + 5 * 2^-39: the number is a double, but the 35 digits printed for it are not the
number, and the number read back from them is another one. -/
theorem C84_false : ¬ C84_full := by
  intro h
  obtain ⟨ns, ds, h1, -, h3⟩ := h [0x4008] [⟨488 * 2 ^ 39 + 5, 0⟩] (by decide) (by decide)
  have h4 : normalizedOk [0x4008] [⟨488 * 2 ^ 39 + 5, 0⟩] = false := by decide +kernel
  have h5 : normalizedOk [0x4008] [⟨488 * 2 ^ 39 + 5, 0⟩] = true := by
    unfold normalizedOk
    rw [h1]
    simp only [List.all_eq_true]
    intro r hr
    rw [h3 r (List.mem_append_left _ hr)]
  rw [h4] at h5
  cases h5

/-- The text of the big.Float that `Big` returns. -/
def bigText (f : Float) : Option Text :=
  match f.big with
  | .ok (x, false) => some (x.textG 35)
  | _ => none

/-- The text does not identify the number: two encodings, 1000 + 35 * 2^-103 and the next number, with the same 35 digits. A
`Big` that is wrong in the last bit passes the generated test. -/
theorem C84_collision : ∃ (f f' : Float) (s s' : Bool) (m m' : ℚ) (x x' : BigFloat), quad.decode f.code = .num s m ∧
    quad.decode f'.code = .num s' m' ∧ m ≠ m' ∧ f.big = .ok (x, false) ∧ f'.big = .ok (x', false) ∧ x.textG 35 = x'.textG 35 := by
  have e1 : quad.decode (Float.code ⟨0x4008F40000000000, 35⟩) = .num false (quad.magc (0x4008F40000000000 * 2 ^ 64 + 35)) := by
    rw [← quad.decode_code]
    · rfl
    · decide
  have e2 : quad.decode (Float.code ⟨0x4008F40000000000, 36⟩) = .num false (quad.magc (0x4008F40000000000 * 2 ^ 64 + 36)) := by
    rw [← quad.decode_code]
    · rfl
    · decide
  obtain ⟨x, x1, -, -⟩ := big_num _ e1
  obtain ⟨x', x2, -, -⟩ := big_num _ e2
  refine ⟨_, _, _, _, _, _, x, x', e1, e2, ?_, x1, x2, ?_⟩
  · intro h
    have := quad.magc_strictMono.injective h
    omega
  · have h : bigText ⟨0x4008F40000000000, 35⟩ = bigText ⟨0x4008F40000000000, 36⟩ := by decide +kernel
    unfold bigText at h
    rw [x1, x2] at h
    exact Option.some.inj h

/-! Concrete cases: 1000 and a number next to -10^-20; rows of each kind. -/

example : bigText ⟨0x4008F40000000000, 0⟩ = some "1000".toList := by decide +kernel
example : bigText ⟨0xBFBC79CA10C92422, 0x35D511E976394D7A⟩ = some "-1e-20".toList := by decide +kernel
example : quad.decode (Float.code ⟨0x4008F40000000000, 0⟩) = .num false 1000 := by
  rw [show Float.code ⟨0x4008F40000000000, 0⟩ = 0x4008F400000000000000000000000000 by decide]
  unfold Format.decode Format.bias
  norm_num [quad]
example : ∃ (k : ℕ) (e : ℤ), k < 10 ^ 35 ∧ (1000 : ℚ) = k * (10 : ℚ) ^ e := ⟨1, 3, by norm_num, by norm_num⟩
example : normalizedOk [0x3F00, 0x4008] [⟨5, 0x8000000000000007⟩, ⟨0xFFFFFFFFFFFF, 2⟩] = true := by decide +kernel
example : (0x8000000000000007 : BitVec 64).toNat % 2 ^ 60 = 7 ∧ (2 : BitVec 64).toNat % 2 ^ 60 = 2 := by decide
example : normalizedOk [0x4008] [⟨488 * 2 ^ 39, 0⟩] = true := by decide +kernel

end Binary128.Gen
end GoFloat
