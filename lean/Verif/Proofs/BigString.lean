import Verif.Proofs.BigText
import Mathlib.Algebra.Order.Ring.Pow
/-
The error of `big.Float.SetString` for decimal numbers.
-/
namespace GoFloat
namespace BigFloat
open Spec

/-- `r` has the sign `neg`, and its magnitude is `v > 0` up to half a unit of the precision of `z`. -/
structure Near (z : BigFloat) (neg : Bool) (v : ℚ) (r : BigFloat) : Prop where
  prec : r.prec = z.prec
  mode : r.mode = z.mode
  wf : r.WF
  fin : r.form = .finite
  sign : r.neg = neg
  mag : |r.mag - v| ≤ v * 2 ^ (-(z.prec : ℤ))
  exact : ∀ (N : ℕ) (a : ℤ), N < 2 ^ z.prec → |v - N * 2 ^ a| ≤ N * 2 ^ a * (5 / 16 * 2 ^ (-(z.prec : ℤ))) → r.mag = N * 2 ^ a

/-- A number close to a number of `p` bits is rounded to it. -/
theorem rhe_exact {v : ℚ} {e a : ℤ} {p N : ℕ} (he1 : (2 : ℚ) ^ (e - 1) ≤ v) (he2 : v < 2 ^ e) (hN : N < 2 ^ p)
    (h : |v - N * 2 ^ a| ≤ N * 2 ^ a * (5 / 16 * 2 ^ (-(p : ℤ)))) : (rhe (v / 2 ^ (e - (p : ℤ))) : ℚ) * 2 ^ (e - (p : ℤ)) = N * 2 ^ a := by
  have hp0 : (0 : ℚ) < 2 ^ (-(p : ℤ)) := by positivity
  have hp1 : (2 : ℚ) ^ (-(p : ℤ)) ≤ 1 := zpow_le_one_of_nonpos₀ (by norm_num) (by omega)
  have ha0 : (0 : ℚ) < 2 ^ a := by positivity
  have hNq : (N : ℚ) + 1 ≤ 2 ^ (p : ℤ) := by rw [zpow_natCast]; exact_mod_cast hN
  have hV0 : (0 : ℚ) ≤ N * 2 ^ a := by positivity
  have hh := abs_le.1 h
  by_cases ha : a < e - p
  · exfalso
    have h1 : (2 : ℚ) ^ (p : ℤ) * 2 ^ a ≤ 2 ^ (e - 1) := by
      rw [← zpow_add₀ (by norm_num)]
      exact zpow_le_zpow_right₀ (by norm_num) (by omega)
    have h2 := mul_le_mul_of_nonneg_right hNq ha0.le
    have h3 : (N : ℚ) * 2 ^ a * (5 / 16 * 2 ^ (-(p : ℤ))) ≤ 5 / 16 * 2 ^ a := by
      have h4 : (N : ℚ) * 2 ^ (-(p : ℤ)) ≤ 1 := by
        calc (N : ℚ) * 2 ^ (-(p : ℤ)) ≤ 2 ^ (p : ℤ) * 2 ^ (-(p : ℤ)) := mul_le_mul_of_nonneg_right (by linarith) hp0.le
          _ = 1 := by rw [← zpow_add₀ (by norm_num)]; simp
      have := mul_le_mul_of_nonneg_right h4 ha0.le
      linarith
    linarith [hh.2]
  · obtain ⟨j, hj⟩ : ∃ j : ℕ, a = e - p + j := ⟨(a - (e - p)).toNat, by omega⟩
    set g : ℚ := 2 ^ (e - (p : ℤ)) with hg
    have hg0 : 0 < g := by positivity
    have hV : (N : ℚ) * 2 ^ a = ((N * 2 ^ j : ℕ) : ℚ) * g := by
      rw [hj, zpow_add₀ (by norm_num), zpow_natCast]
      push_cast
      ring
    have hge : g = 2 ^ e * 2 ^ (-(p : ℤ)) := by rw [hg, ← zpow_add₀ (by norm_num)]; rfl
    have hV2 : (N : ℚ) * 2 ^ a < 2 ^ e * (16 / 11) := by
      have : (N : ℚ) * 2 ^ a * (5 / 16 * 2 ^ (-(p : ℤ))) ≤ (N : ℚ) * 2 ^ a * (5 / 16) := mul_le_mul_of_nonneg_left (by linarith) hV0
      linarith [hh.1]
    rw [hV] at h hV2 ⊢
    generalize hK : N * 2 ^ j = K at *
    have h5 : |v / g - K| < 1 / 2 := by
      have e1 : v / g - K = (v - K * g) / g := by field_simp
      rw [e1, abs_div, abs_of_pos hg0, div_lt_iff₀ hg0]
      refine h.trans_lt ?_
      have : (K : ℚ) * g * (5 / 16 * 2 ^ (-(p : ℤ))) < 2 ^ e * (16 / 11) * (5 / 16 * 2 ^ (-(p : ℤ))) ∨ (K : ℚ) * g = 0 := by
        exact Or.inl (mul_lt_mul_of_pos_right hV2 (by positivity))
      rcases this with this | this
      · refine this.trans ?_
        rw [hge]
        have : (0 : ℚ) < 2 ^ e * 2 ^ (-(p : ℤ)) := by positivity
        linarith
      · rw [this]; simp; exact hg0
    have h6 := abs_sub_rhe_le_half (v / g)
    have h7 : |((rhe (v / g) : ℚ)) - K| < 1 := by
      have : ((rhe (v / g) : ℚ)) - K = -(v / g - rhe (v / g)) + (v / g - K) := by ring
      rw [this]
      refine (abs_add_le _ _).trans_lt ?_
      rw [abs_neg]
      linarith
    have h8 : (rhe (v / g) : ℤ) = K := by
      have : |((rhe (v / g) : ℤ)) - (K : ℤ)| < 1 := by exact_mod_cast h7
      have := Int.abs_lt_one_iff.1 this
      omega
    have h9 : (rhe (v / g) : ℚ) = K := by exact_mod_cast h8
    rw [h9]

theorem near_of_rounded {z r : BigFloat} {neg : Bool} {v : ℚ} (hv : 0 < v) (h : RoundedTo z (signed neg v) r) : Near z neg v r := by
  obtain ⟨h1, h2, hwf, hf, hneg, e, he1, he2, hmag, -, -⟩ := h
  rw [signed_abs hv.le] at he1 he2 hmag
  refine ⟨h1, h2, hwf, hf, ?_, ?_, fun N a hN h => by rw [hmag]; exact rhe_exact he1 he2 hN h⟩
  · rw [hneg]
    have := signed_neg_iff (s := neg) hv
    cases neg
    · simpa using this
    · simpa using this
  · have hq : (0 : ℚ) < 2 ^ (e - (z.prec : ℤ)) := by positivity
    have hh := abs_sub_rhe_le_half (v / 2 ^ (e - (z.prec : ℤ)))
    generalize rhe (v / 2 ^ (e - (z.prec : ℤ))) = N at hh hmag
    have hv' : v = v / 2 ^ (e - (z.prec : ℤ)) * 2 ^ (e - (z.prec : ℤ)) := (div_mul_cancel₀ _ hq.ne').symm
    have h3 : |r.mag - v| = |v / 2 ^ (e - (z.prec : ℤ)) - N| * 2 ^ (e - (z.prec : ℤ)) := by
      rw [hmag, abs_sub_comm, ← abs_of_pos hq, ← abs_mul, abs_of_pos hq, sub_mul, ← hv']
    rw [h3]
    calc |v / 2 ^ (e - (z.prec : ℤ)) - N| * 2 ^ (e - (z.prec : ℤ)) ≤ 1 / 2 * 2 ^ (e - (z.prec : ℤ)) :=
          mul_le_mul_of_nonneg_right hh hq.le
      _ = 2 ^ (e - 1) * 2 ^ (-(z.prec : ℤ)) := by
          rw [← zpow_add₀ (by norm_num), show e - (z.prec : ℤ) = (e - 1 + -(z.prec : ℤ)) + 1 by ring, zpow_add_one₀ (by norm_num)]
          ring
      _ ≤ v * 2 ^ (-(z.prec : ℤ)) := mul_le_mul_of_nonneg_right he1 (by positivity)

/-- Numbers that are far from the limits of the exponent. -/
def Mid (v : ℚ) : Prop := ∃ a : ℕ, a ≤ 1000000 ∧ (2 : ℚ) ^ (-(a : ℤ)) ≤ v ∧ v < 2 ^ (a : ℤ)

theorem Mid.pos {v : ℚ} (h : Mid v) : 0 < v := by
  obtain ⟨a, -, h1, -⟩ := h
  exact lt_of_lt_of_le (by positivity) h1

theorem Mid.range {v : ℚ} (h : Mid v) : (2 : ℚ) ^ MinExp ≤ v ∧ v < 2 ^ (MaxExp - 1) := by
  obtain ⟨a, ha, h1, h2⟩ := h
  have e1 : MinExp ≤ -(a : ℤ) := by unfold MinExp; omega
  have e2 : (a : ℤ) ≤ MaxExp - 1 := by unfold MaxExp; omega
  exact ⟨(zpow_le_zpow_right₀ (by norm_num) e1).trans h1, h2.trans_le (zpow_le_zpow_right₀ (by norm_num) e2)⟩

theorem scaled_near {z : BigFloat} {m : ℕ} (hm : 0 < m) {e : ℤ} (hp1 : 1 ≤ z.prec) (hp2 : z.prec ≤ MaxPrec) (hmode : z.mode = .toNearestEven)
    (hr : Mid ((m : ℚ) * 2 ^ e)) : Near z z.neg (m * 2 ^ e) (setExpAndRound { z with mant := m } (e + bitLen m)) :=
  near_of_rounded hr.pos (setExpAndRound_spec hm hp1 hp2 hmode hr.range.1 hr.range.2)

theorem mul_near {z x y : BigFloat} (hx : 0 < x.mant) (hy : 0 < y.mant) (hp1 : 1 ≤ z.prec) (hp2 : z.prec ≤ MaxPrec)
    (hmode : z.mode = .toNearestEven) (hr : Mid (x.mag * y.mag)) : Near z (x.neg != y.neg) (x.mag * y.mag) (z.mul x y) := by
  have hv : x.mag * y.mag = ((x.mant * y.mant : ℕ) : ℚ) * 2 ^ (x.exp - bitLen x.mant + (y.exp - bitLen y.mant)) := by
    rw [mag_eq, mag_eq, zpow_add₀ (by norm_num)]
    push_cast
    ring
  rw [hv] at hr ⊢
  have := scaled_near (z := { z with neg := x.neg != y.neg }) (Nat.mul_pos hx hy) hp1 hp2 hmode hr
  exact ⟨this.prec, this.mode, this.wf, this.fin, this.sign, this.mag, this.exact⟩

theorem quo_near {z x y : BigFloat} (hx : 0 < x.mant) (hy : 0 < y.mant) (hp1 : 1 ≤ z.prec) (hp2 : z.prec ≤ MaxPrec)
    (hmode : z.mode = .toNearestEven) (hr : Mid (x.mag / y.mag / 2)) (hr2 : Mid (2 * (x.mag / y.mag))) :
    ∃ v, |v - x.mag / y.mag| ≤ x.mag / y.mag * 2 ^ (-((z.prec + 2 : ℕ) : ℤ)) ∧ Near z (x.neg != y.neg) v (z.quo x y) := by
  set k := z.prec + bitLen y.mant + 1 with hk
  set n := x.mant <<< k with hn
  set m := 2 * (n / y.mant) + (if n % y.mant = 0 then 0 else 1) with hm
  set e : ℤ := x.exp - bitLen x.mant - (y.exp - bitLen y.mant) - k - 1 with he
  have hyq : (0 : ℚ) < y.mant := by exact_mod_cast hy
  have hn' : n = x.mant * 2 ^ k := Nat.shiftLeft_eq _ _
  have hQ : x.mag / y.mag = 2 * ((n : ℚ) / y.mant) * 2 ^ e := by
    rw [mag_eq, mag_eq, hn', he]
    push_cast
    rw [show x.exp - bitLen x.mant - (y.exp - bitLen y.mant) - k - 1 = x.exp - bitLen x.mant - (y.exp - bitLen y.mant) - (k : ℤ) - (1 : ℤ) by ring,
      zpow_sub₀ (by norm_num) _ 1, zpow_sub₀ (by norm_num) _ (k : ℤ), zpow_sub₀ (by norm_num) (x.exp - bitLen x.mant), zpow_natCast, zpow_one]
    have h1 : (2 : ℚ) ^ (y.exp - bitLen y.mant) ≠ 0 := by positivity
    field_simp
  have hE : (0 : ℚ) < 2 ^ e := by positivity
  have herr : |(m : ℚ) - 2 * ((n : ℚ) / y.mant)| ≤ 1 := by
    have hdm : (n : ℚ) = y.mant * (n / y.mant : ℕ) + (n % y.mant : ℕ) := by exact_mod_cast (Nat.div_add_mod n y.mant).symm
    have hlt : ((n % y.mant : ℕ) : ℚ) < y.mant := by exact_mod_cast Nat.mod_lt n hy
    have hq : (n : ℚ) / y.mant = (n / y.mant : ℕ) + ((n % y.mant : ℕ) : ℚ) / y.mant := by
      rw [hdm, add_div, mul_div_cancel_left₀ _ hyq.ne']
    have h0 : 0 ≤ ((n % y.mant : ℕ) : ℚ) / y.mant := by positivity
    have h1 : ((n % y.mant : ℕ) : ℚ) / y.mant < 1 := (div_lt_one hyq).2 hlt
    rw [hq, hm]
    by_cases hz : n % y.mant = 0
    · rw [if_pos hz, hz]; push_cast; simp
    · rw [if_neg hz, abs_le]; push_cast
      constructor <;> linarith
  have hbig : (2 : ℚ) ^ ((z.prec + 2 : ℕ) : ℤ) ≤ 2 * ((n : ℚ) / y.mant) := by
    have hb : (y.mant : ℚ) < 2 ^ bitLen y.mant := by exact_mod_cast lt_two_pow_bitLen y.mant
    have h1 : (1 : ℚ) ≤ x.mant := by exact_mod_cast hx
    have h2 : (2 : ℚ) ^ (z.prec + 1) ≤ (n : ℚ) / y.mant := by
      rw [le_div_iff₀ hyq, hn', hk]
      push_cast
      calc (2 : ℚ) ^ (z.prec + 1) * y.mant ≤ 2 ^ (z.prec + 1) * 2 ^ bitLen y.mant := mul_le_mul_of_nonneg_left hb.le (by positivity)
        _ = 2 ^ (z.prec + bitLen y.mant + 1) := by rw [← pow_add]; congr 1; omega
        _ ≤ _ := le_mul_of_one_le_left (by positivity) h1
    rw [zpow_natCast, pow_succ]
    linarith
  have hQ1 : |(m : ℚ) * 2 ^ e - x.mag / y.mag| ≤ x.mag / y.mag * 2 ^ (-((z.prec + 2 : ℕ) : ℤ)) := by
    rw [hQ, ← sub_mul, abs_mul, abs_of_pos hE, mul_right_comm]
    refine mul_le_mul_of_nonneg_right (herr.trans ?_) hE.le
    rw [zpow_neg, ← div_eq_mul_inv, le_div_iff₀ (by positivity), one_mul]
    exact hbig
  have hQpos : 0 < x.mag / y.mag := by have := hr2.pos; linarith
  have hhalf : x.mag / y.mag * 2 ^ (-((z.prec + 2 : ℕ) : ℤ)) ≤ x.mag / y.mag * (1 / 2) := by
    refine mul_le_mul_of_nonneg_left ?_ hQpos.le
    calc (2 : ℚ) ^ (-((z.prec + 2 : ℕ) : ℤ)) ≤ 2 ^ (-1 : ℤ) := zpow_le_zpow_right₀ (by norm_num) (by push_cast; omega)
      _ = 1 / 2 := by norm_num
  have hb := abs_le.1 (hQ1.trans hhalf)
  have hmid : Mid ((m : ℚ) * 2 ^ e) := by
    obtain ⟨a, ha, a1, a2⟩ := hr
    obtain ⟨b, hb', b1, b2⟩ := hr2
    refine ⟨max a b, max_le ha hb', ?_, ?_⟩
    · have : (2 : ℚ) ^ (-((max a b : ℕ) : ℤ)) ≤ 2 ^ (-(a : ℤ)) := zpow_le_zpow_right₀ (by norm_num) (by push_cast; omega)
      linarith
    · have : (2 : ℚ) ^ (b : ℤ) ≤ 2 ^ ((max a b : ℕ) : ℤ) := zpow_le_zpow_right₀ (by norm_num) (by push_cast; omega)
      linarith
  have hm0 : 0 < m := by
    have := hmid.pos
    rcases Nat.eq_zero_or_pos m with h | h
    · rw [h] at this; simp at this
    · exact h
  refine ⟨_, hQ1, ?_⟩
  have := scaled_near (z := { z with neg := x.neg != y.neg }) hm0 hp1 hp2 hmode hmid
  exact ⟨this.prec, this.mode, this.wf, this.fin, this.sign, this.mag, this.exact⟩

/-! ### Powers of five -/

/-- `a` is `b` with `n` relative errors of at most `u`. -/
def Within (u : ℚ) (n : ℕ) (a b : ℚ) : Prop := b * (1 - u) ^ n ≤ a ∧ a ≤ b * (1 + u) ^ n

theorem Within.mul {u : ℚ} (h1 : u ≤ 1) {n m : ℕ} {a b c d : ℚ} (hb : 0 ≤ b) (hd : 0 ≤ d) (hx : Within u n a b) (hy : Within u m c d) :
    Within u (n + m) (a * c) (b * d) := by
  have e1 : 0 ≤ b * (1 - u) ^ n := mul_nonneg hb (pow_nonneg (by linarith) _)
  have e2 : 0 ≤ d * (1 - u) ^ m := mul_nonneg hd (pow_nonneg (by linarith) _)
  constructor
  · rw [pow_add, show b * d * ((1 - u) ^ n * (1 - u) ^ m) = (b * (1 - u) ^ n) * (d * (1 - u) ^ m) by ring]
    exact mul_le_mul hx.1 hy.1 e2 (e1.trans hx.1)
  · rw [pow_add, show b * d * ((1 + u) ^ n * (1 + u) ^ m) = (b * (1 + u) ^ n) * (d * (1 + u) ^ m) by ring]
    exact mul_le_mul hx.2 hy.2 (e2.trans hy.1) ((e1.trans hx.1).trans hx.2)

theorem Within.step {u : ℚ} (h0 : 0 ≤ u) (h1 : u ≤ 1) {n : ℕ} {a b c : ℚ} (h : Within u n a b) (hc : |c - a| ≤ a * u) : Within u (n + 1) c b := by
  have h2 := abs_le.1 hc
  constructor
  · rw [pow_succ, ← mul_assoc]
    calc b * (1 - u) ^ n * (1 - u) ≤ a * (1 - u) := mul_le_mul_of_nonneg_right h.1 (by linarith)
      _ ≤ c := by linarith [h2.1]
  · rw [pow_succ, ← mul_assoc]
    calc c ≤ a * (1 + u) := by linarith [h2.2]
      _ ≤ _ := mul_le_mul_of_nonneg_right h.2 (by linarith)

theorem Within.mono {u : ℚ} (h0 : 0 ≤ u) (h1 : u ≤ 1) {n m : ℕ} (hnm : n ≤ m) {a b : ℚ} (hb : 0 ≤ b) (h : Within u n a b) : Within u m a b :=
  ⟨(mul_le_mul_of_nonneg_left (pow_le_pow_of_le_one (by linarith) (by linarith) hnm) hb).trans h.1,
    h.2.trans (mul_le_mul_of_nonneg_left (pow_le_pow_right₀ (by linarith) hnm) hb)⟩

theorem Within.abs {u : ℚ} (h0 : 0 ≤ u) {n : ℕ} (hn : n * u ≤ 1 / 2) (hn1 : u ≤ 1) {a b : ℚ} (hb : 0 ≤ b) (h : Within u n a b) : |a - b| ≤ b * (2 * (n * u)) := by
  have h1 : 1 - n * u ≤ (1 - u) ^ n := by
    have := one_add_mul_le_pow (a := -u) (by linarith) n
    rw [← sub_eq_add_neg] at this
    linarith
  have h2 : (1 + u) ^ n * (1 - n * u) ≤ 1 := by
    calc (1 + u) ^ n * (1 - n * u) ≤ (1 + u) ^ n * (1 - u) ^ n := mul_le_mul_of_nonneg_left h1 (pow_nonneg (by linarith) _)
      _ = (1 - u * u) ^ n := by rw [← mul_pow]; congr 1; ring
      _ ≤ 1 := pow_le_one₀ (by nlinarith) (by nlinarith)
  have hnu : 0 ≤ (n : ℚ) * u := by positivity
  have h3 : (1 + u) ^ n ≤ 1 + 2 * (n * u) := by
    have : (1 + u) ^ n * (1 - n * u) ≤ (1 + 2 * (n * u)) * (1 - n * u) := by nlinarith
    exact le_of_mul_le_mul_right this (by linarith)
  have h4 := mul_le_mul_of_nonneg_left h1 hb
  have h5 := mul_le_mul_of_nonneg_left h3 hb
  rw [abs_le]
  constructor
  · have := h.1
    nlinarith
  · have := h.2
    nlinarith

/-- A positive variable of precision `p`. -/
structure Pos (p : ℕ) (z : BigFloat) : Prop where
  wf : z.WF
  fin : z.form = .finite
  sign : z.neg = false
  prec : z.prec = p
  mode : z.mode = .toNearestEven

theorem mid_pow {u : ℚ} (hu0 : 0 ≤ u) (hu1 : u ≤ 1 / 8) {n j : ℕ} (hn : n ≤ j) (hj : j ≤ 2 ^ 16) {a : ℚ} (h : Within u n a (5 ^ j)) : Mid a := by
  have h' := h.mono hu0 (by linarith) hn (by positivity)
  have e1 : (1 : ℚ) ≤ 5 ^ j * (1 - u) ^ j := by
    rw [← mul_pow]
    exact one_le_pow₀ (by linarith)
  have e2 : (5 : ℚ) ^ j * (1 + u) ^ j ≤ 8 ^ j := by
    rw [← mul_pow]
    exact pow_le_pow_left₀ (by linarith) (by linarith) _
  have e3 : (8 : ℚ) ^ j = 2 ^ (3 * j) := by rw [pow_mul]; norm_num
  refine ⟨3 * j + 1, by omega, ?_, ?_⟩
  · refine le_trans ?_ (e1.trans h'.1)
    exact zpow_le_one_of_nonpos₀ (by norm_num) (by omega)
  · refine (h'.2.trans e2).trans_lt ?_
    rw [e3, zpow_natCast]
    exact pow_lt_pow_right₀ (by norm_num) (by omega)

theorem mul_pos5 {u : ℚ} (hu0 : 0 ≤ u) (hu1 : u ≤ 1 / 8) {p q r : ℕ} (hp1 : 1 ≤ p) (hp2 : p ≤ MaxPrec) (hpu : (2 : ℚ) ^ (-(p : ℤ)) ≤ u) {z x y : BigFloat}
    (hz : Pos p z) (hx : Pos q x) (hy : Pos r y) {n m i j : ℕ} (hn : n + m ≤ i + j) (hi : i + j ≤ 2 ^ 16) (hwx : Within u n x.mag (5 ^ i))
    (hwy : Within u m y.mag (5 ^ j)) : Pos p (z.mul x y) ∧ Within u (n + m + 1) (z.mul x y).mag (5 ^ (i + j)) := by
  have hw := hwx.mul (by linarith) (by positivity) (by positivity) hwy
  rw [← pow_add] at hw
  have hm := mid_pow hu0 hu1 hn hi hw
  have := mul_near (z := z) (hx.wf.mant_pos hx.fin) (hy.wf.mant_pos hy.fin) (by rw [hz.prec]; exact hp1) (by rw [hz.prec]; exact hp2) hz.mode hm
  refine ⟨⟨this.wf, this.fin, ?_, this.prec.trans hz.prec, this.mode.trans hz.mode⟩, ?_⟩
  · rw [this.sign, hx.sign, hy.sign]; rfl
  · refine hw.step hu0 (by linarith) (this.mag.trans ?_)
    rw [hz.prec]
    exact mul_le_mul_of_nonneg_left hpu hm.pos.le

theorem pow5Loop_spec {u : ℚ} (hu0 : 0 ≤ u) (hu1 : u ≤ 1 / 8) {p q : ℕ} (hp1 : 1 ≤ p) (hp2 : p ≤ MaxPrec) (hpu : (2 : ℚ) ^ (-(p : ℤ)) ≤ u)
    (hq1 : 1 ≤ q) (hq2 : q ≤ MaxPrec) (hqu : (2 : ℚ) ^ (-(q : ℤ)) ≤ u) : ∀ (i : ℕ) (z f : BigFloat) (n s k : ℕ), n < 2 ^ i → 1 ≤ k →
    k * 2 ^ i ≤ 2 ^ 16 → s + k * n ≤ 2 ^ 16 → Pos p z → Pos q f → Within u s z.mag (5 ^ s) → Within u (k - 1) f.mag (5 ^ k) →
    Pos p (pow5Loop i z f n) ∧ Within u (s + k * n) (pow5Loop i z f n).mag (5 ^ (s + k * n))
  | 0, z, f, n, s, k, hn, _, _, _, hz, _, hwz, _ => by
    have : n = 0 := by simpa using hn
    subst this
    exact ⟨hz, hwz⟩
  | i + 1, z, f, n, s, k, hn, hk, hk2, hs, hz, hf, hwz, hwf => by
    unfold pow5Loop
    by_cases h0 : n = 0
    · subst h0
      exact ⟨hz, hwz⟩
    · rw [if_neg h0]
      have hpow : 2 ^ (i + 1) = 2 * 2 ^ i := by rw [pow_succ]; ring
      have hk3 : 2 * k * 2 ^ i ≤ 2 ^ 16 := by
        calc 2 * k * 2 ^ i = k * 2 ^ (i + 1) := by rw [hpow]; ring
          _ ≤ _ := hk2
      have hk4 : 2 * k ≤ 2 ^ 16 := (Nat.le_mul_of_pos_right _ (by positivity)).trans hk3
      obtain ⟨f1, f2⟩ := mul_pos5 hu0 hu1 hq1 hq2 hqu hf hf hf (by omega) (by omega) hwf hwf
      rw [show k - 1 + (k - 1) + 1 = 2 * k - 1 by omega, ← two_mul k] at f2
      have hkn : k * n = (n % 2) * k + 2 * k * (n / 2) := by
        conv_lhs => rw [← Nat.mod_add_div n 2]
        ring
      have hz' : Pos p (if n % 2 = 1 then z.mul z f else z) ∧
          Within u (s + (n % 2) * k) (if n % 2 = 1 then z.mul z f else z).mag (5 ^ (s + (n % 2) * k)) := by
        by_cases hb : n % 2 = 1
        · rw [if_pos hb, hb, one_mul]
          rw [hb] at hkn
          obtain ⟨z1, z2⟩ := mul_pos5 hu0 hu1 hp1 hp2 hpu hz hz hf (n := s) (m := k - 1) (by omega) (by omega) hwz hwf
          rw [show s + (k - 1) + 1 = s + k by omega] at z2
          exact ⟨z1, z2⟩
        · have : n % 2 = 0 := by omega
          rw [if_neg hb, this, zero_mul, add_zero]
          exact ⟨hz, hwz⟩
      have := pow5Loop_spec hu0 hu1 hp1 hp2 hpu hq1 hq2 hqu i _ _ (n / 2) (s + (n % 2) * k) (2 * k) (by omega) (by omega) hk3
        (by omega) hz'.1 f1 hz'.2 f2
      rw [show s + n % 2 * k + 2 * k * (n / 2) = s + k * n by omega] at this
      exact this

theorem setUint64_pos {p x : ℕ} {z : BigFloat} (hz : z.prec = p) (hm : z.mode = .toNearestEven) (hp1 : 64 ≤ p) (hp2 : p ≤ MaxPrec) (hx : 0 < x)
    (hx2 : x < 2 ^ 64) : Pos p (z.setUint64 x) ∧ (z.setUint64 x).mag = x := by
  have hb : bitLen x ≤ 64 := bitLen_le_of_lt hx2
  refine ⟨⟨⟨?_, fun _ => hx, fun _ => ?_, fun _ => ?_, fun _ => ?_, fun _ => ⟨x, 0, by simp [setUint64], ?_⟩⟩, rfl, rfl, hz, hm⟩, ?_⟩
  · show z.prec ≤ _
    omega
  · show MinExp ≤ (bitLen x : ℤ)
    unfold MinExp; omega
  · show (bitLen x : ℤ) ≤ MaxExp
    unfold MaxExp; omega
  · show 1 ≤ z.prec
    omega
  · show x < 2 ^ z.prec
    exact hx2.trans_le (Nat.pow_le_pow_right (by norm_num) (by omega))
  · rw [mag_eq]
    simp [setUint64]

theorem pow5_spec {u : ℚ} (hu0 : 0 ≤ u) (hu1 : u ≤ 1 / 8) {p : ℕ} (hp1 : 64 ≤ p) (hp2 : p + 64 ≤ MaxPrec) (hpu : (2 : ℚ) ^ (-(p : ℤ)) ≤ u)
    {z : BigFloat} (hz : z.prec = p) (hm : z.mode = .toNearestEven) {t : ℕ} (ht : t ≤ 32768) :
    Pos p (z.pow5 t) ∧ Within u t (z.pow5 t).mag (5 ^ t) := by
  have hself : ∀ (b : ℚ), Within u 0 b b := fun b => ⟨by simp, by simp⟩
  have h5 : ∀ j ≤ 27, 5 ^ j < 2 ^ 64 := fun j hj => (Nat.pow_le_pow_right (by norm_num) hj).trans_lt (by norm_num)
  unfold pow5
  by_cases h : t ≤ 27
  · rw [if_pos h]
    obtain ⟨h1, h2⟩ := setUint64_pos (x := 5 ^ t) hz hm hp1 (by omega) (by positivity) (h5 t h)
    refine ⟨h1, ?_⟩
    rw [h2]
    push_cast
    exact (hself _).mono hu0 (by linarith) (Nat.zero_le _) (by positivity)
  · rw [if_neg h]
    dsimp only
    obtain ⟨h1, h2⟩ := setUint64_pos (x := 5 ^ 27) hz hm hp1 (by omega) (by positivity) (h5 27 le_rfl)
    have hq : (new.setPrec ((z.setUint64 (5 ^ 27)).prec + 64)).prec = p + 64 := by
      rw [h1.prec]
      unfold setPrec
      rw [if_neg (by omega)]
      dsimp only
      rw [if_neg (by simp [new]), min_eq_left hp2]
    have hqm : (new.setPrec ((z.setUint64 (5 ^ 27)).prec + 64)).mode = .toNearestEven := by
      rw [h1.prec]
      unfold setPrec
      rw [if_neg (by omega)]
      dsimp only
      rw [if_neg (by simp [new])]
      rfl
    obtain ⟨f1, f2⟩ := setUint64_pos (x := 5) hq hqm (by omega) hp2 (by norm_num) (by norm_num)
    have hb : bitLen (t - 27) ≤ 15 := bitLen_le_of_lt (by omega)
    have hb2 : 2 ^ bitLen (t - 27) ≤ 2 ^ 15 := Nat.pow_le_pow_right (by norm_num) hb
    have := pow5Loop_spec hu0 hu1 (by omega) (by omega) hpu (q := p + 64) (by omega) hp2
      ((zpow_le_zpow_right₀ (by norm_num) (by push_cast; omega)).trans hpu) (bitLen (t - 27)) _ _ (t - 27) 27 1 (lt_two_pow_bitLen _) le_rfl (by omega)
      (by omega) h1 f1 (by
        rw [h2]
        push_cast
        exact (hself _).mono hu0 (by linarith) (Nat.zero_le _) (by positivity)) (by
        rw [f2]
        simpa using hself 5)
    rw [show 27 + 1 * (t - 27) = t by omega] at this
    exact this

/-! ### SetString -/

theorem chain {a b c α β : ℚ} (hα : 0 ≤ α) (h1 : |a - b| ≤ b * α) (h2 : |b - c| ≤ c * β) : |a - c| ≤ c * (α + β + α * β) := by
  have h3 := (abs_le.1 h2).2
  have h4 : b * α ≤ (c + c * β) * α := mul_le_mul_of_nonneg_right (by linarith) hα
  calc |a - c| = |(a - b) + (b - c)| := by ring_nf
    _ ≤ |a - b| + |b - c| := abs_add_le _ _
    _ ≤ (c + c * β) * α + c * β := by linarith
    _ = _ := by ring

theorem div_near {a b B δ : ℚ} (ha : 0 ≤ a) (hB : 0 < B) (hδ0 : 0 ≤ δ) (hδ : δ ≤ 1 / 2) (h : |b - B| ≤ B * δ) : |a / b - a / B| ≤ a / B * (2 * δ) := by
  have h1 := abs_le.1 h
  have h0 : B * δ ≤ B * (1 / 2) := mul_le_mul_of_nonneg_left hδ hB.le
  have hb : B / 2 ≤ b := by linarith [h1.1]
  have hb0 : 0 < b := by linarith
  have e : a / b - a / B = a / B * ((B - b) / b) := by
    field_simp
  rw [e, abs_mul, abs_of_nonneg (by positivity), abs_div, abs_of_pos hb0]
  refine mul_le_mul_of_nonneg_left ?_ (by positivity)
  rw [div_le_iff₀ hb0, abs_sub_comm]
  calc |b - B| ≤ B * δ := h
    _ ≤ 2 * δ * b := by nlinarith

theorem mid_near {v w : ℚ} {a : ℕ} (ha : a ≤ 900000) (h1 : (2 : ℚ) ^ (-(a : ℤ)) ≤ v) (h2 : v < 2 ^ (a : ℤ)) (h3 : v / 4 ≤ w) (h4 : w ≤ 4 * v) : Mid w := by
  refine ⟨a + 2, by omega, ?_, ?_⟩
  · have : (2 : ℚ) ^ (-((a + 2 : ℕ) : ℤ)) = 2 ^ (-(a : ℤ)) / 4 := by
      push_cast
      rw [show -((a : ℤ) + 2) = -(a : ℤ) - 2 by ring, zpow_sub₀ (by norm_num)]
      norm_num
    rw [this]
    linarith
  · have : (2 : ℚ) ^ ((a + 2 : ℕ) : ℤ) = 2 ^ (a : ℤ) * 4 := by
      push_cast
      rw [zpow_add₀ (by norm_num)]
      norm_num
    rw [this]
    linarith

theorem decimal_bracket {m K : ℕ} {E : ℤ} (hm : 0 < m) (hm2 : (m : ℚ) < 2 ^ 117) (hE : E.natAbs ≤ K) :
    (2 : ℚ) ^ (-((117 + 4 * K : ℕ) : ℤ)) ≤ m * (10 : ℚ) ^ E ∧ m * (10 : ℚ) ^ E < (2 : ℚ) ^ ((117 + 4 * K : ℕ) : ℤ) := by
  have hmq : (1 : ℚ) ≤ m := by exact_mod_cast hm
  obtain ⟨k, hk⟩ : ∃ k : ℕ, k = E.natAbs := ⟨_, rfl⟩
  have g1 : (1 : ℚ) ≤ 10 ^ k := one_le_pow₀ (by norm_num)
  have g2 : (10 : ℚ) ^ k ≤ 2 ^ (4 * k) := by
    rw [pow_mul]
    exact pow_le_pow_left₀ (by norm_num) (by norm_num) _
  have g3 : (10 : ℚ) ^ k ≤ 2 ^ (4 * K) := g2.trans (pow_le_pow_right₀ (by norm_num) (by omega))
  rcases le_total 0 E with hs | hs
  · have : (10 : ℚ) ^ E = 10 ^ k := by rw [hk, ← zpow_natCast]; congr 1; omega
    rw [this]
    constructor
    · refine le_trans (zpow_le_one_of_nonpos₀ (by norm_num) (by omega)) ?_
      exact one_le_mul_of_one_le_of_one_le hmq g1
    · rw [zpow_natCast, pow_add]
      calc (m : ℚ) * 10 ^ k < 2 ^ 117 * 10 ^ k := mul_lt_mul_of_pos_right hm2 (by positivity)
        _ ≤ 2 ^ 117 * 2 ^ (4 * K) := mul_le_mul_of_nonneg_left g3 (by positivity)
  · have : (10 : ℚ) ^ E = (10 ^ k)⁻¹ := by rw [hk, ← zpow_natCast, ← zpow_neg]; congr 1; omega
    rw [this]
    constructor
    · rw [zpow_neg, zpow_natCast]
      have : ((2 : ℚ) ^ (117 + 4 * K))⁻¹ ≤ (10 ^ k)⁻¹ := by
        apply inv_anti₀ (by positivity)
        exact g3.trans (pow_le_pow_right₀ (by norm_num) (by omega))
      exact this.trans (le_mul_of_one_le_left (by positivity) hmq)
    · have h6 : ((10 : ℚ) ^ k)⁻¹ ≤ 1 := inv_le_one_of_one_le₀ g1
      calc (m : ℚ) * (10 ^ k)⁻¹ ≤ m := mul_le_of_le_one_right (by positivity) h6
        _ < 2 ^ 117 := hm2
        _ ≤ _ := by rw [zpow_natCast]; exact pow_le_pow_right₀ (by norm_num) (by omega)

/-- The number that `SetString` returns: what the text says, up to a little more than half a unit. -/
theorem setString_near {x : BigFloat} (hp : x.prec = 113) (hm : x.mode = .toNearestEven) {s : Text} {r : Scanned} (hs : scanDecimal s = some r)
    (h0 : 0 < r.mant) (hmant : r.mant < 10 ^ 35) (hlo : -8000 ≤ r.exp - r.frac) (hhi : r.exp - r.frac ≤ 8000) :
    ∃ w, x.setString s = some w ∧ w.WF ∧ w.form = .finite ∧ w.neg = r.neg ∧ w.prec = 113 ∧
      |w.mag - r.mant * (10 : ℚ) ^ (r.exp - r.frac)| ≤
        r.mant * (10 : ℚ) ^ (r.exp - r.frac) * (1 / 2 ^ 113 + 1 / 2 ^ 115 + 1 / 2 ^ 140) ∧
      ∀ (N : ℕ) (a : ℤ), N < 2 ^ 113 → r.mant * (10 : ℚ) ^ (r.exp - r.frac) = N * 2 ^ a → w.mag = N * 2 ^ a := by
  set E : ℤ := r.exp - r.frac with hE
  set V : ℚ := r.mant * (10 : ℚ) ^ E with hV
  have hmq : (1 : ℚ) ≤ r.mant := by exact_mod_cast h0
  have hbl : bitLen r.mant ≤ 117 := bitLen_le_of_lt (hmant.trans (by norm_num))
  have hmq2 : (r.mant : ℚ) < 2 ^ 117 := by exact_mod_cast hmant.trans (by norm_num : (10 : ℕ) ^ 35 < 2 ^ 117)
  have hVpos : 0 < V := by rw [hV]; positivity
  -- V is far from the limits
  obtain ⟨hVb1, hVb2⟩ := decimal_bracket (K := 8000) h0 hmq2 (by omega : E.natAbs ≤ 8000)
  have hmid : ∀ w : ℚ, V / 4 ≤ w → w ≤ 4 * V → Mid w := fun w => mid_near (by norm_num) hVb1 hVb2
  clear hVb1 hVb2
  unfold setString
  rw [hs]
  dsimp only
  rw [if_neg (by omega : ¬ x.prec = 0), if_neg h0.ne', ← hE, if_pos ⟨by unfold MinExp; omega, by unfold MaxExp; omega⟩]
  set z : BigFloat := { x with neg := r.neg, prec := x.prec, form := .finite, mant := r.mant, exp := bitLen r.mant + E } with hz
  have hzm : z.mag = r.mant * 2 ^ E := by
    rw [mag_eq]
    show (r.mant : ℚ) * 2 ^ ((bitLen r.mant : ℤ) + E - bitLen r.mant) = _
    congr 2
    ring
  have hzp : z.prec = 113 := hp
  have hMP : (177 : ℕ) + 64 ≤ MaxPrec := by unfold MaxPrec; omega
  have hε : (1 / 2 ^ 113 : ℚ) ≤ 1 / 2 ^ 113 + 1 / 2 ^ 115 + 1 / 2 ^ 140 := by norm_num
  have hp113 : (2 : ℚ) ^ (-((113 : ℕ) : ℤ)) = 1 / 2 ^ 113 := by rw [zpow_neg, zpow_natCast]; norm_num
  by_cases hE0 : E = 0
  · rw [if_pos hE0]
    have hVm : z.mag = V := by rw [hzm, hV, hE0]; simp
    have := near_of_rounded (by rw [hVm]; exact hVpos) (round_roundedTo (z := z) rfl h0 (by omega) (by omega) hm
      (by show MinExp ≤ (bitLen r.mant : ℤ) + E; unfold MinExp; omega) (by show (bitLen r.mant : ℤ) + E < MaxExp; unfold MaxExp; omega))
    rw [hVm] at this
    refine ⟨_, rfl, this.wf, this.fin, this.sign, this.prec.trans hzp, this.mag.trans ?_, ?_⟩
    · rw [hzp, hp113]
      exact mul_le_mul_of_nonneg_left hε hVpos.le
    · intro N a hN hNa
      refine this.exact N a (by rw [hzp]; exact hN) ?_
      rw [hNa, sub_self, abs_zero]
      positivity
  · rw [if_neg hE0]
    set t : ℕ := E.natAbs with ht
    set p := new.setPrec (x.prec + 64) with hpp
    have hpprec : p.prec = 177 := by
      rw [hpp, hp]; decide
    have hpmode : p.mode = .toNearestEven := by
      rw [hpp, hp]; decide
    set u : ℚ := 1 / 2 ^ 177 with hu
    have hu0 : 0 ≤ u := by rw [hu]; positivity
    have hu1 : u ≤ 1 / 8 := by rw [hu]; norm_num
    obtain ⟨p1, p2⟩ := pow5_spec hu0 hu1 (p := 177) (by norm_num) hMP (by rw [hu, zpow_neg, zpow_natCast]; norm_num) hpprec hpmode (t := t) (by omega)
    have htq : (t : ℚ) ≤ 2 ^ 13 := by
      have : t ≤ 2 ^ 13 := by omega
      exact_mod_cast this
    have htu : (t : ℚ) * u ≤ 1 / 2 ^ 164 := by
      calc (t : ℚ) * u ≤ 2 ^ 13 * u := mul_le_mul_of_nonneg_right htq hu0
        _ = _ := by rw [hu]; norm_num
    have hP : |(p.pow5 t).mag - 5 ^ t| ≤ 5 ^ t * (1 / 2 ^ 163) := by
      refine (p2.abs hu0 (htu.trans (by norm_num)) (hu1.trans (by norm_num)) (by positivity)).trans ?_
      refine mul_le_mul_of_nonneg_left ?_ (by positivity)
      calc 2 * ((t : ℚ) * u) ≤ 2 * (1 / 2 ^ 164) := by linarith
        _ = _ := by norm_num
    have hpm := p1.wf.mant_pos p1.fin
    have hsg : (z.neg != (p.pow5 t).neg) = r.neg := by
      rw [p1.sign]
      show (r.neg != false) = r.neg
      cases r.neg <;> rfl
    have h5 : (0 : ℚ) < 5 ^ t := by positivity
    have hzpos : 0 < z.mag := by rw [hzm]; positivity
    by_cases hneg : E < 0
    · rw [if_pos hneg, show (-E).toNat = t by omega]
      have hVq : z.mag / 5 ^ t = V := by
        rw [hzm, hV, show (10 : ℚ) = 2 * 5 by norm_num, mul_zpow, ← mul_assoc, div_eq_mul_inv]
        congr 1
        rw [← zpow_natCast, ← zpow_neg]
        congr 1
        omega
      have hQ := div_near hzpos.le h5 (by norm_num) (by norm_num) hP
      rw [hVq] at hQ
      have hQ' := abs_le.1 hQ
      have hsmall : V * (2 * (1 / 2 ^ 163)) ≤ V * (1 / 4) := mul_le_mul_of_nonneg_left (by norm_num) hVpos.le
      obtain ⟨v, q1, q2⟩ := quo_near (z := z) (x := z) (y := p.pow5 t) h0 hpm (by omega) (by omega) hm
        (hmid _ (by linarith [hQ'.1]) (by linarith [hQ'.2])) (hmid _ (by linarith [hQ'.1]) (by linarith [hQ'.2]))
      rw [hzp] at q1
      have e115 : (2 : ℚ) ^ (-((113 + 2 : ℕ) : ℤ)) = 1 / 2 ^ 115 := by rw [zpow_neg, zpow_natCast]; norm_num
      rw [e115] at q1
      have c1 := chain (by norm_num) q1 hQ
      have c2 := chain (α := 1 / 2 ^ 113) (by norm_num) (by have := q2.mag; rw [hzp, hp113] at this; exact this) c1
      refine ⟨_, rfl, q2.wf, q2.fin, q2.sign.trans hsg, q2.prec.trans hzp, c2.trans ?_, ?_⟩
      · exact mul_le_mul_of_nonneg_left (by norm_num) hVpos.le
      · intro N a hN hNa
        refine q2.exact N a (by rw [hzp]; exact hN) ?_
        rw [← hNa, hzp, hp113]
        exact c1.trans (mul_le_mul_of_nonneg_left (by norm_num) hVpos.le)
    · rw [if_neg hneg, show E.toNat = t by omega]
      have hVq : z.mag * 5 ^ t = V := by
        rw [hzm, hV, show (10 : ℚ) = 2 * 5 by norm_num, mul_zpow, ← mul_assoc]
        congr 1
        rw [← zpow_natCast]
        congr 1
        omega
      have hQ : |z.mag * (p.pow5 t).mag - V| ≤ V * (1 / 2 ^ 163) := by
        rw [← hVq, ← mul_sub, abs_mul, abs_of_pos hzpos, mul_assoc]
        exact mul_le_mul_of_nonneg_left hP hzpos.le
      have hQ' := abs_le.1 hQ
      have hsmall : V * (1 / 2 ^ 163) ≤ V * (1 / 4) := mul_le_mul_of_nonneg_left (by norm_num) hVpos.le
      have q2 := mul_near (z := z) (x := z) (y := p.pow5 t) h0 hpm (by omega) (by omega) hm
        (hmid _ (by linarith [hQ'.1]) (by linarith [hQ'.2]))
      have c2 := chain (α := 1 / 2 ^ 113) (by norm_num) (by have := q2.mag; rw [hzp, hp113] at this; exact this) hQ
      refine ⟨_, rfl, q2.wf, q2.fin, q2.sign.trans hsg, q2.prec.trans hzp, c2.trans ?_, ?_⟩
      · exact mul_le_mul_of_nonneg_left (by norm_num) hVpos.le
      · intro N a hN hNa
        refine q2.exact N a (by rw [hzp]; exact hN) ?_
        rw [← hNa, hzp, hp113]
        exact hQ.trans (mul_le_mul_of_nonneg_left (by norm_num) hVpos.le)

end BigFloat
end GoFloat
