import Verif.Proofs.Library
import Verif.Proofs.BigString
import Verif.Proofs.BigText
import Verif.Proofs.IsExact
import Verif.Proofs.FixedText
import Verif.Proofs.Format
/-
Reading a decimal text that is close to a number of `p` bits, with `p` bits of precision.
-/
namespace GoFloat
open Spec

/-- Two different numbers of `p` bits are apart. -/
theorem bits_apart {p N : ℕ} {k e a : ℤ} (hk : |k| < 2 ^ p) (hN : N < 2 ^ p) (h : |k * (2 : ℚ) ^ e - N * 2 ^ a| < N * 2 ^ a * 2 ^ (-(p : ℤ))) :
    k * (2 : ℚ) ^ e = N * 2 ^ a := by
  have hp : (0 : ℚ) < 2 ^ p := by positivity
  have hpz : (2 : ℚ) ^ (-(p : ℤ)) = 1 / 2 ^ p := by rw [zpow_neg, zpow_natCast, one_div]
  rw [hpz] at h
  rcases le_total a e with hae | hae
  · obtain ⟨j, hj⟩ := Int.eq_ofNat_of_zero_le (show 0 ≤ e - a by omega)
    have he : (2 : ℚ) ^ e = 2 ^ j * 2 ^ a := by rw [← zpow_natCast, ← zpow_add₀ (by norm_num)]; congr 1; omega
    have ha : (0 : ℚ) < 2 ^ a := by positivity
    rw [he, ← mul_assoc, ← sub_mul, abs_mul, abs_of_pos ha, mul_right_comm, mul_lt_mul_iff_left₀ ha] at h
    have h1 : (N : ℚ) * (1 / 2 ^ p) < 1 := by
      rw [mul_one_div, div_lt_one hp]; exact_mod_cast hN
    have h2 : |((k * 2 ^ j - N : ℤ) : ℚ)| < 1 := by push_cast; exact h.trans h1
    have h3 : k * 2 ^ j - (N : ℤ) = 0 := by
      rw [← Int.cast_abs] at h2
      have : |k * 2 ^ j - (N : ℤ)| < 1 := by exact_mod_cast h2
      exact Int.abs_lt_one_iff.1 this
    have h4 : (k : ℚ) * 2 ^ j = N := by
      have : k * 2 ^ j = (N : ℤ) := by omega
      exact_mod_cast this
    rw [he, ← mul_assoc, h4]
  · obtain ⟨j, hj⟩ := Int.eq_ofNat_of_zero_le (show 0 ≤ a - e by omega)
    have he : (2 : ℚ) ^ a = 2 ^ j * 2 ^ e := by rw [← zpow_natCast, ← zpow_add₀ (by norm_num)]; congr 1; omega
    have ha : (0 : ℚ) < 2 ^ e := by positivity
    rw [he, ← mul_assoc, ← sub_mul, abs_mul, abs_of_pos ha, mul_right_comm, mul_lt_mul_iff_left₀ ha] at h
    rw [he, ← mul_assoc]
    congr 1
    obtain ⟨L, hL⟩ : ∃ L : ℕ, L = N * 2 ^ j := ⟨_, rfl⟩
    have hLq : (N : ℚ) * 2 ^ j = L := by rw [hL]; push_cast; rfl
    rw [hLq] at h ⊢
    by_contra hne
    have h1 : (1 : ℚ) ≤ |(k : ℚ) - L| := by
      have : 1 ≤ |k - (L : ℤ)| := Int.one_le_abs (by
        intro h0
        apply hne
        have : k = (L : ℤ) := by omega
        rw [this]; norm_cast)
      have := (Int.cast_le (R := ℚ)).2 this
      push_cast at this
      exact this
    have h2 : (2 : ℚ) ^ p < L := by
      have := h1.trans_lt h
      rwa [mul_one_div, lt_div_iff₀ hp, one_mul] at this
    have h3 : (2 : ℚ) ^ p + 1 ≤ L := by
      have : 2 ^ p < L := by exact_mod_cast h2
      exact_mod_cast this
    have h4 : (k : ℚ) + 1 ≤ 2 ^ p := by
      have := (abs_lt.1 hk).2
      exact_mod_cast this
    have h5 := (abs_lt.1 h).1
    have h6 : (L : ℚ) * (1 - 1 / 2 ^ p) < k := by linarith
    have h7 : (1 : ℚ) / 2 ^ p ≤ 1 := by rw [div_le_one hp]; exact one_le_pow₀ (by norm_num)
    have h8 : ((2 : ℚ) ^ p + 1) * (1 - 1 / 2 ^ p) ≤ L * (1 - 1 / 2 ^ p) := mul_le_mul_of_nonneg_right h3 (by linarith)
    have h9 : ((2 : ℚ) ^ p + 1) * (1 - 1 / 2 ^ p) = 2 ^ p - 1 / 2 ^ p := by field_simp; ring
    linarith

/-- In the two modes that round to nearest, no number of `p` bits is closer than the result. -/
theorem nearest_optimal {mode : RoundingMode} (hm : mode = .toNearestEven ∨ mode = .toNearestAway) {p : ℕ} {v r : ℚ} (h : RoundsToBitsIn mode p v r) :
    (∃ k e : ℤ, |k| < 2 ^ p ∧ r = k * (2 : ℚ) ^ e) ∧ ∀ k e : ℤ, |k| < 2 ^ p → |v - r| ≤ |v - k * (2 : ℚ) ^ e| := by
  refine ⟨h.1, ?_⟩
  rcases hm with rfl | rfl
  · exact h.2.2.1
  · exact fun k e hk => (h.2 k e hk).1

namespace BigFloat

theorem signed_sub (s : Bool) (a b : ℚ) : |signed s a - signed s b| = |a - b| := by
  cases s
  · rfl
  · unfold signed
    rw [if_pos rfl, if_pos rfl, neg_sub_neg, abs_sub_comm]

/-- A result that is close to a number of `p` bits is that number. -/
theorem result_close {mode : RoundingMode} (hm : mode = .toNearestEven ∨ mode = .toNearestAway) {p N : ℕ} {a : ℤ} {s : Bool} {v : ℚ} {r : BigFloat}
    (h : BigResult mode p s (signed s v) r) (hN0 : 0 < N) (hN : N < 2 ^ p) (hlo : (2 : ℚ) ^ (-100000 : ℤ) ≤ N * 2 ^ a) (hhi : N * (2 : ℚ) ^ a < 2 ^ (100000 : ℤ))
    (hc : |v - N * 2 ^ a| ≤ N * 2 ^ a * (31 / 64 * 2 ^ (-(p : ℤ)))) : r.WF ∧ r.form = .finite ∧ r.neg = s ∧ r.prec = p ∧ r.mode = mode ∧ r.mag = N * 2 ^ a := by
  obtain ⟨h1, h2, h3, h4, h5⟩ := h
  set M : ℚ := N * 2 ^ a with hM
  have hM0 : 0 < M := by have : (0 : ℚ) < N := by exact_mod_cast hN0
                         positivity
  have hp0 : (0 : ℚ) < 2 ^ (-(p : ℤ)) := by positivity
  have hp1 : (2 : ℚ) ^ (-(p : ℤ)) ≤ 1 := zpow_le_one_of_nonpos₀ (by norm_num) (by omega)
  have hc1 : |v - M| ≤ M * (31 / 64) := hc.trans (mul_le_mul_of_nonneg_left (by linarith) hM0.le)
  have hv := abs_le.1 hc1
  have hv0 : 0 < v := by linarith
  have hkey : ∀ q : ℚ, RoundsToBitsIn mode p (signed s v) (signed s q) → |v - q| ≤ |v - M| ∧ ∃ k e : ℤ, |k| < 2 ^ p ∧ q = k * (2 : ℚ) ^ e := by
    intro q hq
    obtain ⟨⟨k, e, k1, k2⟩, o2⟩ := nearest_optimal hm hq
    constructor
    · have := o2 (if s then -(N : ℤ) else N) a (by
        have : (N : ℤ) < 2 ^ p := by exact_mod_cast hN
        split
        · rw [abs_neg, Nat.abs_cast]; exact this
        · rw [Nat.abs_cast]; exact this)
      rw [signed_sub] at this
      refine this.trans (le_of_eq ?_)
      rw [← signed_sub s v M]
      congr 2
      cases s <;> simp [signed, hM]
    · refine ⟨if s then -k else k, e, by split; rw [abs_neg]; exact k1; exact k1, ?_⟩
      cases s
      · simpa [signed] using k2
      · have : -q = k * (2 : ℚ) ^ e := by simpa [signed] using k2
        rw [if_pos rfl]
        push_cast
        linarith
  have hsv : |signed s v| = v := signed_abs hv0.le
  rcases h5 with ⟨f1, f2, -⟩ | ⟨-, -, f3⟩ | ⟨-, -, f3⟩
  · refine ⟨h4, f1, h3, h1, h2, ?_⟩
    rw [sval_finite f1, h3] at f2
    obtain ⟨g1, k, e, g2, g3⟩ := hkey _ f2
    rw [g3]
    refine bits_apart g2 hN ?_
    rw [← hM, ← g3]
    have : |r.mag - M| ≤ |v - r.mag| + |v - M| := by
      calc |r.mag - M| = |(r.mag - v) + (v - M)| := by ring_nf
        _ ≤ |r.mag - v| + |v - M| := abs_add_le _ _
        _ = _ := by rw [abs_sub_comm r.mag v]
    have h9 : 0 < M * 2 ^ (-(p : ℤ)) := mul_pos hM0 hp0
    have h10 : M * (31 / 64 * (2 : ℚ) ^ (-(p : ℤ))) = 31 / 64 * (M * 2 ^ (-(p : ℤ))) := by ring
    rw [h10] at hc
    linarith
  · exfalso
    rw [hsv] at f3
    have e1 : (2 : ℚ) ^ (MinExp - 1) ≤ 2 ^ (-100001 : ℤ) := zpow_le_zpow_right₀ (by norm_num) (by unfold MinExp; norm_num)
    have e2 : (2 : ℚ) ^ (-100000 : ℤ) = 2 * 2 ^ (-100001 : ℤ) := by
      rw [show (-100000 : ℤ) = 1 + -100001 by norm_num, zpow_add₀ (by norm_num), zpow_one]
    rw [e2] at hlo
    generalize (2 : ℚ) ^ (MinExp - 1) = A at *
    generalize (2 : ℚ) ^ (-100001 : ℤ) = B at *
    clear_value M
    clear hc hc1 hkey hM
    linarith
  · exfalso
    have e1 : (2 : ℚ) ^ (100002 : ℤ) ≤ 2 ^ MaxExp := zpow_le_zpow_right₀ (by norm_num) (by unfold MaxExp; norm_num)
    have e2 : (2 : ℚ) ^ (100002 : ℤ) = 4 * 2 ^ (100000 : ℤ) := by
      rw [show (100002 : ℤ) = 2 + 100000 by norm_num, zpow_add₀ (by norm_num)]; norm_num
    rw [e2] at e1
    have hv2 := hv.2
    have hv1 := hv.1
    clear hc hp0 hp1 hv hlo e2
    generalize hA : (2 : ℚ) ^ MaxExp = A at *
    generalize (2 : ℚ) ^ (100000 : ℤ) = B at *
    have f4 : A ≤ v + M := by
      rcases f3 with f3 | f3
      · rw [hsv] at f3; clear hkey hA; linarith
      · have h8 := (hkey _ f3).1.trans hc1
        have h9 := (abs_le.1 h8).1
        clear hkey hA
        linarith
    clear hkey hA f3
    clear_value M
    linarith

/-- A text whose number is close to a number of `p` bits is read as that number. -/
theorem setString_exact {x : BigFloat} (hp1 : 1 ≤ x.prec) (hp2 : x.prec + 128 ≤ MaxPrec) (hm : x.mode = .toNearestEven ∨ x.mode = .toNearestAway) {s : Text}
    {r : Scanned} (hs : scanDecimal s = some r) (h0 : 0 < r.mant) (hE : (r.exp - r.frac).natAbs ≤ 32768) {N : ℕ} {a : ℤ} (hN0 : 0 < N) (hN : N < 2 ^ x.prec)
    (hlo : (2 : ℚ) ^ (-100000 : ℤ) ≤ N * 2 ^ a) (hhi : N * (2 : ℚ) ^ a < 2 ^ (100000 : ℤ))
    (hc : |r.mant * (10 : ℚ) ^ (r.exp - r.frac) - N * 2 ^ a| ≤ N * 2 ^ a * (15 / 32 * 2 ^ (-(x.prec : ℤ)))) :
    ∃ w, x.setString s = some w ∧ w.WF ∧ w.form = .finite ∧ w.neg = r.neg ∧ w.prec = x.prec ∧ w.mode = x.mode ∧ w.mag = N * 2 ^ a := by
  set E : ℤ := r.exp - r.frac with hEd
  set V : ℚ := r.mant * (10 : ℚ) ^ E with hV
  set M : ℚ := N * 2 ^ a with hM
  have hM0 : 0 < M := by have : (0 : ℚ) < N := by exact_mod_cast hN0
                         positivity
  set δ : ℚ := 2 ^ (-(x.prec : ℤ)) with hδ
  have hδ0 : 0 < δ := by rw [hδ]; positivity
  have hδ1 : δ ≤ 1 := zpow_le_one_of_nonpos₀ (by norm_num) (by omega)
  have hVpos : 0 < V := by
    have : (0 : ℚ) < r.mant := by exact_mod_cast h0
    rw [hV]; positivity
  -- the size of the mantissa
  have hbl : bitLen r.mant ≤ 300000 := by
    have h1 : V ≤ 2 * M := by
      have := (abs_le.1 hc).2
      have h2 : M * (15 / 32 * δ) ≤ M * 1 := mul_le_mul_of_nonneg_left (by linarith) hM0.le
      linarith
    have h2 : (10 : ℚ) ^ (-E) ≤ 2 ^ (140000 : ℤ) := by
      have e1 : (10 : ℚ) ^ (-E) ≤ 10 ^ (32768 : ℤ) := zpow_le_zpow_right₀ (by norm_num) (by omega)
      refine e1.trans ?_
      calc (10 : ℚ) ^ (32768 : ℤ) ≤ (2 ^ (4 : ℤ)) ^ (32768 : ℤ) := zpow_le_zpow_left₀ (by norm_num) (by norm_num) (by norm_num)
        _ = 2 ^ (4 * 32768 : ℤ) := (zpow_mul _ _ _).symm
        _ ≤ _ := zpow_le_zpow_right₀ (by norm_num) (by norm_num)
    have h3 : (r.mant : ℚ) = V * 10 ^ (-E) := by
      rw [hV, mul_assoc, ← zpow_add₀ (by norm_num), add_neg_cancel, zpow_zero, mul_one]
    have h4 : V < 2 ^ (100001 : ℤ) := by
      have : (2 : ℚ) ^ (100001 : ℤ) = 2 * 2 ^ (100000 : ℤ) := by
        rw [show (100001 : ℤ) = 1 + 100000 by norm_num, zpow_add₀ (by norm_num), zpow_one]
      rw [this]
      generalize (2 : ℚ) ^ (100000 : ℤ) = B at *
      linarith
    have h5 : (r.mant : ℚ) < 2 ^ (300000 : ℤ) := by
      rw [h3]
      calc V * 10 ^ (-E) ≤ V * 2 ^ (140000 : ℤ) := mul_le_mul_of_nonneg_left h2 hVpos.le
        _ < 2 ^ (100001 : ℤ) * 2 ^ (140000 : ℤ) := mul_lt_mul_of_pos_right h4 (zpow_pos (by norm_num) _)
        _ = 2 ^ (100001 + 140000 : ℤ) := (zpow_add₀ (by norm_num) _ _).symm
        _ ≤ _ := zpow_le_zpow_right₀ (by norm_num) (by norm_num)
    apply bitLen_le_of_lt
    have h6 : (2 : ℚ) ^ (300000 : ℤ) = ((2 ^ 300000 : ℕ) : ℚ) := by
      rw [show (300000 : ℤ) = ((300000 : ℕ) : ℤ) by norm_num, zpow_natCast, Nat.cast_pow, Nat.cast_ofNat]
    rw [h6] at h5
    exact Nat.cast_lt.1 h5
  unfold setString
  rw [hs]
  dsimp only
  rw [if_neg (by omega : ¬ x.prec = 0), if_neg h0.ne', ← hEd, if_pos ⟨by unfold MinExp; omega, by unfold MaxExp; omega⟩]
  set z : BigFloat := { x with neg := r.neg, prec := x.prec, form := .finite, mant := r.mant, exp := bitLen r.mant + E } with hz
  have hzm : z.mag = r.mant * 2 ^ E := by
    rw [mag_eq]
    show (r.mant : ℚ) * 2 ^ ((bitLen r.mant : ℤ) + E - bitLen r.mant) = _
    congr 2
    ring
  have hzp : z.prec = x.prec := rfl
  have finish : ∀ {v : ℚ} {w : BigFloat}, BigResult x.mode x.prec r.neg (signed r.neg v) w → |v - V| ≤ V * (1 / 2 ^ 20 * δ) →
      w.WF ∧ w.form = .finite ∧ w.neg = r.neg ∧ w.prec = x.prec ∧ w.mode = x.mode ∧ w.mag = M := by
    intro v w hw hv
    refine result_close hm hw hN0 hN hlo hhi ?_
    rw [← hM, ← hδ]
    refine (chain (by positivity) hv hc).trans (mul_le_mul_of_nonneg_left ?_ hM0.le)
    have : 1 / 2 ^ 20 * δ * (15 / 32 * δ) ≤ 1 / 2 ^ 20 * δ * (15 / 32 * 1) := mul_le_mul_of_nonneg_left (by linarith) (by positivity)
    linarith
  by_cases hE0 : E = 0
  · rw [if_pos hE0]
    have hVm : z.mag = V := by rw [hzm, hV, hE0]; simp
    have h1 := round_big (z := z) rfl h0 hp1 (by rw [hzp]; omega) (by show MinExp ≤ (bitLen r.mant : ℤ) + E; unfold MinExp; omega)
      (by show (bitLen r.mant : ℤ) + E ≤ MaxExp; unfold MaxExp; omega)
    refine ⟨_, rfl, finish h1 ?_⟩
    rw [hVm, sub_self, abs_zero]
    positivity
  · rw [if_neg hE0]
    set t : ℕ := E.natAbs with ht
    set p := new.setPrec (x.prec + 64) with hpp
    have hpprec : p.prec = x.prec + 64 := by
      rw [hpp]
      unfold setPrec
      rw [if_neg (by omega)]
      dsimp only
      rw [if_neg (by simp [new]), min_eq_left (by omega)]
    have hpmode : p.mode = .toNearestEven := by
      rw [hpp]
      unfold setPrec
      rw [if_neg (by omega)]
      dsimp only
      rw [if_neg (by simp [new])]
      rfl
    set u : ℚ := δ * (1 / 2 ^ 64) with hu
    have hu0 : 0 ≤ u := by rw [hu]; positivity
    have hu1 : u ≤ 1 / 8 := by
      have : u ≤ 1 * (1 / 2 ^ 64) := mul_le_mul_of_nonneg_right hδ1 (by norm_num)
      refine this.trans (by norm_num)
    have hpu : (2 : ℚ) ^ (-((x.prec + 64 : ℕ) : ℤ)) ≤ u := by
      rw [hu, hδ]
      push_cast
      rw [neg_add, zpow_add₀ (by norm_num)]
      refine le_of_eq ?_
      congr 1
      norm_num
    obtain ⟨p1, p2⟩ := pow5_spec hu0 hu1 (p := x.prec + 64) (by omega) (by omega) hpu hpprec hpmode (t := t) (by omega)
    have htq : (t : ℚ) ≤ 2 ^ 15 := by
      have : t ≤ 2 ^ 15 := by omega
      exact_mod_cast this
    have htu : (t : ℚ) * u ≤ δ * (1 / 2 ^ 40) := by
      calc (t : ℚ) * u ≤ 2 ^ 15 * u := mul_le_mul_of_nonneg_right htq hu0
        _ = δ * (2 ^ 15 * (1 / 2 ^ 64)) := by rw [hu]; ring
        _ ≤ _ := mul_le_mul_of_nonneg_left (by norm_num) hδ0.le
    have htu1 : (t : ℚ) * u ≤ 1 / 2 := htu.trans (by
      have : δ * (1 / 2 ^ 40) ≤ 1 * (1 / 2 ^ 40) := mul_le_mul_of_nonneg_right hδ1 (by norm_num)
      exact this.trans (by norm_num))
    have hP : |(p.pow5 t).mag - 5 ^ t| ≤ 5 ^ t * (1 / 2 ^ 30 * δ) := by
      refine (p2.abs hu0 htu1 (hu1.trans (by norm_num)) (by positivity)).trans ?_
      refine mul_le_mul_of_nonneg_left ?_ (by positivity)
      have : (2 : ℚ) * (δ * (1 / 2 ^ 40)) ≤ 1 / 2 ^ 30 * δ := by
        rw [mul_comm (1 / 2 ^ 30 : ℚ), mul_left_comm]
        exact mul_le_mul_of_nonneg_left (by norm_num) hδ0.le
      linarith
    have hpm := p1.wf.mant_pos p1.fin
    have hsg : (z.neg != (p.pow5 t).neg) = r.neg := by
      rw [p1.sign]
      show (r.neg != false) = r.neg
      cases r.neg <;> rfl
    have h5 : (0 : ℚ) < 5 ^ t := by positivity
    have hzpos : 0 < z.mag := by
      have : (0 : ℚ) < r.mant := by exact_mod_cast h0
      rw [hzm]; positivity
    have hsm : 1 / 2 ^ 30 * δ ≤ 1 / 2 := by
      have : 1 / 2 ^ 30 * δ ≤ 1 / 2 ^ 30 * 1 := mul_le_mul_of_nonneg_left hδ1 (by norm_num)
      exact this.trans (by norm_num)
    by_cases hneg : E < 0
    · rw [if_pos hneg, show (-E).toNat = t by omega]
      have hVq : z.mag / 5 ^ t = V := by
        rw [hzm, hV, show (10 : ℚ) = 2 * 5 by norm_num, mul_zpow, ← mul_assoc, div_eq_mul_inv]
        congr 1
        rw [← zpow_natCast, ← zpow_neg]
        congr 1
        omega
      have hQ := div_near hzpos.le h5 (by positivity) hsm hP
      rw [hVq] at hQ
      have h1 := quo_big (z := z) (x := z) (y := p.pow5 t) h0 hpm hp1 (by rw [hzp]; omega)
      rw [hsg] at h1
      refine ⟨_, rfl, finish h1 (hQ.trans (mul_le_mul_of_nonneg_left ?_ hVpos.le))⟩
      rw [← mul_assoc]
      exact mul_le_mul_of_nonneg_right (by norm_num) hδ0.le
    · rw [if_neg hneg, show E.toNat = t by omega]
      have hVq : z.mag * 5 ^ t = V := by
        rw [hzm, hV, show (10 : ℚ) = 2 * 5 by norm_num, mul_zpow, ← mul_assoc]
        congr 1
        rw [← zpow_natCast]
        congr 1
        omega
      have hQ : |z.mag * (p.pow5 t).mag - V| ≤ V * (1 / 2 ^ 30 * δ) := by
        rw [← hVq, ← mul_sub, abs_mul, abs_of_pos hzpos, mul_assoc]
        exact mul_le_mul_of_nonneg_left hP hzpos.le
      have h1 := mul_big (z := z) (x := z) (y := p.pow5 t) h0 hpm hp1 (by rw [hzp]; omega)
      rw [hsg] at h1
      refine ⟨_, rfl, finish h1 (hQ.trans (mul_le_mul_of_nonneg_left ?_ hVpos.le))⟩
      exact mul_le_mul_of_nonneg_right (by norm_num) hδ0.le

/-- Numbers with binary places up to the `L`-th have no more decimal places, and they have no more when rounded to `n` digits. -/
theorem rounded_places {n L N : ℕ} {a : ℤ} (ha : -(L : ℤ) ≤ a) {V : ℚ} (h : RoundedDigits n (N * 2 ^ a) V) : ∃ K : ℕ, V = K * (10 : ℚ) ^ (-(L : ℤ)) := by
  obtain ⟨k, e, -, -, h3, rfl⟩ := h
  rcases le_or_gt (-(L : ℤ)) e with he | he
  · obtain ⟨j, hj⟩ := Int.eq_ofNat_of_zero_le (show 0 ≤ e + L by omega)
    refine ⟨k * 10 ^ j, ?_⟩
    push_cast
    rw [mul_assoc, ← zpow_natCast, ← zpow_add₀ (by norm_num)]
    congr 2
    omega
  · obtain ⟨j, hj⟩ := Int.eq_ofNat_of_zero_le (show 0 ≤ a - e by omega)
    obtain ⟨i, hi⟩ := Int.eq_ofNat_of_zero_le (show 0 ≤ -e by omega)
    obtain ⟨l, hl⟩ := Int.eq_ofNat_of_zero_le (show 0 ≤ a + L by omega)
    have h10 : (10 : ℚ) ^ e = 2 ^ e * 5 ^ e := by rw [← mul_zpow]; norm_num
    have hq : (N : ℚ) * 2 ^ a / 10 ^ e = ((N * 2 ^ j * 5 ^ i : ℕ) : ℤ) := by
      rw [div_eq_iff (by positivity), h10]
      push_cast
      rw [← zpow_natCast (2 : ℚ) j, ← zpow_natCast (5 : ℚ) i, ← hj, ← hi]
      rw [show (N : ℚ) * 2 ^ (a - e) * 5 ^ (-e) * (2 ^ e * 5 ^ e) = N * (2 ^ (a - e) * 2 ^ e) * (5 ^ (-e) * 5 ^ e) by ring,
        ← zpow_add₀ (by norm_num), ← zpow_add₀ (by norm_num), neg_add_cancel, zpow_zero, mul_one, sub_add_cancel]
    have hs : NearestEven ((N : ℚ) * 2 ^ a / 10 ^ e) ((N * 2 ^ j * 5 ^ i : ℕ) : ℤ) := by
      rw [hq]
      exact ⟨by simp, by intro h; simp at h⟩
    have hk : ((k : ℤ) : ℚ) = (N : ℚ) * 2 ^ a / 10 ^ e := by rw [Strconv.nearestEven_unique h3 hs, hq]
    refine ⟨N * 2 ^ l * 5 ^ L, ?_⟩
    rw [Int.cast_natCast] at hk
    rw [hk, div_mul_cancel₀ _ (by positivity)]
    push_cast
    rw [show (10 : ℚ) ^ (-(L : ℤ)) = 2 ^ (-(L : ℤ)) * 5 ^ (-(L : ℤ)) by rw [← mul_zpow]; norm_num, ← zpow_natCast (2 : ℚ) l, ← zpow_natCast (5 : ℚ) L, ← hl,
      show (N : ℚ) * 2 ^ (a + L) * 5 ^ (L : ℤ) * (2 ^ (-(L : ℤ)) * 5 ^ (-(L : ℤ))) = N * (2 ^ (a + L) * 2 ^ (-(L : ℤ))) * (5 ^ (L : ℤ) * 5 ^ (-(L : ℤ))) by ring,
      ← zpow_add₀ (by norm_num), ← zpow_add₀ (by norm_num), add_neg_cancel, zpow_zero, mul_one, add_neg_cancel_right]

theorem digits_places {ds : List ℕ} {dp : ℤ} (h : NormalDec ds dp) (hne : ds ≠ []) {K L : ℕ} (hK : decValue ds dp = K * (10 : ℚ) ^ (-(L : ℤ))) :
    -(L : ℤ) ≤ dp - ds.length := by
  by_contra hc
  obtain ⟨j, hj⟩ := Int.eq_ofNat_of_zero_le (show 0 ≤ -(L : ℤ) - (dp - ds.length) - 1 by omega)
  rw [Strconv.decValue_eq] at hK
  have : (Strconv.dv ds : ℚ) = K * 10 ^ (j + 1) := by
    have h1 : (Strconv.dv ds : ℚ) = K * (10 : ℚ) ^ (-(L : ℤ)) / 10 ^ (dp - ds.length) := by rw [← hK, mul_div_cancel_right₀ _ (by positivity)]
    rw [h1, mul_div_assoc, ← zpow_sub₀ (by norm_num), ← zpow_natCast]
    congr 2
    push_cast
    omega
  have h2 : Strconv.dv ds = K * 10 ^ (j + 1) := by exact_mod_cast this
  refine Strconv.dv_mod h.digit h.last hne ?_
  rw [h2, pow_succ, ← mul_assoc]
  exact Nat.mul_mod_left _ _

/-- A number of `p` bits, printed with `n` digits so that `16 * 2^p ≤ 15 * 10^(n-1)`, is read back with `p` bits of precision. -/
theorem text_survives {x z : BigFloat} (hx : x.WF) {s : Bool} {m : ℚ} (hd : x.datum = .num s m) {n : ℕ} (hn1 : 1 ≤ n) (hn : 16 * 2 ^ z.prec ≤ 15 * 10 ^ (n - 1)) {N : ℕ}
    {a : ℤ} (hN : N < 2 ^ z.prec) (hm : m = N * (2 : ℚ) ^ a) (ha : -20000 ≤ a) (hhi : m < (2 : ℚ) ^ (20000 : ℤ)) (hz1 : 1 ≤ z.prec)
    (hz2 : z.prec + 128 ≤ MaxPrec) (hmode : z.mode = .toNearestEven ∨ z.mode = .toNearestAway) :
    ∃ w, z.setString (x.textG n) = some w ∧ w.WF ∧ w.datum = .num s m ∧ w.prec = z.prec ∧ w.mode = z.mode := by
  obtain ⟨ds, dp, g1, g2, g3, g4, g5⟩ := textG_spec hx hd hn1
  obtain ⟨r, r1, r2, r3, -, r5, -, r6⟩ := scanDecimal_gText' s g1 g3
  rw [g2]
  by_cases h0 : m = 0
  · have hV : decValue ds dp = 0 := by rw [g4.2 h0]; simp [decValue]
    have hr0 : r.mant = 0 := by
      rw [hV] at r3
      have : (10 : ℚ) ^ (r.exp - r.frac) ≠ 0 := by positivity
      exact_mod_cast (mul_eq_zero.1 r3).resolve_right this
    refine ⟨{ z with neg := r.neg, prec := z.prec, acc := .exact, form := .zero, mant := 0 }, ?_, ?_, ?_, rfl, rfl⟩
    · unfold BigFloat.setString
      rw [r1]
      dsimp only
      rw [if_pos hr0, if_neg (by omega)]
    · refine ⟨?_, ?_, ?_, ?_, ?_, ?_⟩
      · show z.prec ≤ BigFloat.MaxPrec
        omega
      all_goals (intro h; cases h)
    · show Datum.num r.neg 0 = _
      rw [r2, h0]
  · have hN0 : 0 < N := by
      rcases Nat.eq_zero_or_pos N with h | h
      · exact absurd (by rw [hm, h]; simp) h0
      · exact h
    have hNq : (1 : ℚ) ≤ N := by exact_mod_cast hN0
    have hmpos : 0 < m := by rw [hm]; positivity
    have hne : ds ≠ [] := fun h => h0 (g4.1 h)
    have hR := g5 h0
    have hnear := rounded_near hR
    have hV : |decValue ds dp - m| ≤ m * (15 / 32 * 2 ^ (-(z.prec : ℤ))) := by
      have h1 : (0 : ℚ) < 2 * 10 ^ (n - 1) := by positivity
      have h2 : |decValue ds dp - m| ≤ m / (2 * 10 ^ (n - 1)) := by rwa [le_div_iff₀ h1]
      refine h2.trans ?_
      rw [div_eq_mul_one_div]
      refine mul_le_mul_of_nonneg_left ?_ hmpos.le
      have h3 : 16 * (2 : ℚ) ^ z.prec ≤ 15 * 10 ^ (n - 1) := by exact_mod_cast hn
      have h4 : (0 : ℚ) < 2 ^ z.prec := by positivity
      rw [zpow_neg, zpow_natCast, show (15 / 32 * ((2 : ℚ) ^ z.prec)⁻¹) = 1 / (32 / 15 * 2 ^ z.prec) by field_simp]
      exact one_div_le_one_div_of_le (by positivity) (by linarith)
    obtain ⟨b1, b2⟩ := Strconv.rounded_range hmpos hR
    obtain ⟨K, hK⟩ := rounded_places (L := 20000) (by exact_mod_cast ha) (by rwa [hm] at hR)
    have hlow := digits_places g1 hne hK
    have hup : dp ≤ 20002 := by
      by_contra hc
      have h1 := (Strconv.decValue_pos g1 hne).1
      have h2 : (2 : ℚ) ^ (20002 : ℤ) ≤ 10 ^ (dp - 1) := by
        refine (zpow_le_zpow_left₀ (by norm_num) (by norm_num : (2 : ℚ) ≤ 10) (by norm_num)).trans (zpow_le_zpow_right₀ (by norm_num) (by omega))
      have h3 : (2 : ℚ) ^ (20002 : ℤ) = 4 * 2 ^ (20000 : ℤ) := by
        rw [show (20002 : ℤ) = 2 + 20000 by norm_num, zpow_add₀ (by norm_num)]; norm_num
      rw [h3] at h2
      clear hK hV hnear hR r3
      generalize (2 : ℚ) ^ (20000 : ℤ) = B at *
      linarith
    have hr0 : 0 < r.mant := by
      rcases Nat.eq_zero_or_pos r.mant with h | h
      · rw [h] at r3
        have := (Strconv.decValue_pos g1 hne).1
        rw [← r3] at this
        have h9 : (0 : ℚ) < (10 : ℚ) ^ (dp - 1) := by positivity
        simp at this
        linarith
      · exact h
    have hlo : (2 : ℚ) ^ (-100000 : ℤ) ≤ N * 2 ^ a := by
      have e1 : (2 : ℚ) ^ (-100000 : ℤ) ≤ 2 ^ a := zpow_le_zpow_right₀ (by norm_num) (by omega)
      exact e1.trans (le_mul_of_one_le_left (by positivity) hNq)
    have hhi' : N * (2 : ℚ) ^ a < 2 ^ (100000 : ℤ) := by
      rw [← hm]
      exact hhi.trans_le (zpow_le_zpow_right₀ (by norm_num) (by norm_num))
    obtain ⟨w, w1, w2, w3, w4, w5, w6, w7⟩ := setString_exact hz1 hz2 hmode r1 hr0 (by omega) hN0 hN hlo hhi' (by rw [r3, ← hm]; exact hV)
    refine ⟨w, w1, w2, ?_, w5, w6⟩
    rw [BigFloat.datum_finite w3, w4, w7, r2, hm]

end BigFloat

end GoFloat
