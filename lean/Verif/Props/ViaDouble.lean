import Verif.Props.QuotientPair
import Verif.Props.Step
import Verif.Props.Difference
import Verif.Props.RelError
/-
C112: computing with halves in float64.
-/
namespace GoFloat.Binary16
open Spec Float128ppc

variable {f g : Float} {s s' : Bool} {m m' : ℚ}

/-- `r` is the float64 nearest to the number `v`, ties to even, as the operations of the language on float64 return it for an exact result `v`
(The Go Programming Language Specification, Arithmetic operators, and IEEE 754 arithmetic of the machine); the sign of a zero is left open. -/
def NearestDouble (v : ℚ) (r : F64) : Prop :=
  if v = 0 then ∃ s, double.decode r.toNat = .num s 0 else double.RoundsTo (decide (v < 0)) |v| r.toNat

/-- A number of 53 bits that is not too small and not too large is its own nearest double. -/
theorem nearest_self {v : ℚ} {K q : ℤ} {r : F64} (hK : |K| < 2 ^ 53) (hq : -1074 ≤ q) (hv : v = K * (2 : ℚ) ^ q) (hlt : |v| < (2 : ℚ) ^ (1024 : ℤ)) (h : NearestDouble v r) :
    ∃ σ, double.decode r.toNat = .num σ |v| ∧ signed σ |v| = v := by
  unfold NearestDouble at h
  split at h
  · rename_i h0
    obtain ⟨σ, hσ⟩ := h
    exact ⟨σ, by rw [h0, abs_zero]; exact hσ, by rw [h0]; cases σ <;> simp [signed]⟩
  · have hp : (0 : ℚ) < (2 : ℚ) ^ q := zpow_pos (by norm_num) q
    obtain ⟨c, hc⟩ := form_value (F := double) (by decide) (K := K) (q := q) (v := v) hK hq (by rw [hv, abs_mul, abs_of_pos hp]) hlt (decide (v < 0))
    refine ⟨_, round_to_self (by decide) hc h, ?_⟩
    by_cases hn : v < 0
    · simp [signed, hn, abs_of_neg hn]
    · simp [signed, hn, abs_of_nonneg (not_lt.1 hn)]

/-- A finite half is a multiple of 2^-24 below 2^16. -/
theorem half_value {c : ℕ} (h : half.decode c = .num s m) : (∃ j : ℤ, signed s m = j * (2 : ℚ) ^ (-24 : ℤ)) ∧ 0 ≤ m ∧ m < 2 ^ 16 := by
  obtain ⟨h1, h2⟩ := decode_multiple (F := half) (by decide) h
  exact ⟨h1, decode_nonneg h, by
    rw [show half.bias + 1 = 16 by decide] at h2
    exact_mod_cast h2⟩

theorem sum_exact {v : ℚ} {r : F64} (hj : ∃ j : ℤ, v = j * (2 : ℚ) ^ (-24 : ℤ)) (hlt : |v| < 2 ^ 17) (h : NearestDouble v r) :
    ∃ σ, double.decode r.toNat = .num σ |v| ∧ signed σ |v| = v := by
  obtain ⟨j, hj⟩ := hj
  refine nearest_self (K := j) (q := -24) ?_ (by norm_num) hj (hlt.trans ?_) h
  · have hp : (0 : ℚ) < (2 : ℚ) ^ (-24 : ℤ) := by positivity
    rw [hj, abs_mul, abs_of_pos hp] at hlt
    have h1 : |(j : ℚ)| < 2 ^ 41 := by
      norm_num at hlt ⊢
      linarith
    have h2 : |j| < 2 ^ 41 := by exact_mod_cast h1
    exact h2.trans (by norm_num)
  · exact lt_of_le_of_lt (by norm_num) (zpow_lt_zpow_right₀ (by norm_num) (by norm_num : (17 : ℤ) < 1024))

/-- A half is near to a multiple of 2^-24. -/
theorem small_half {v : ℚ} (hj : ∃ j : ℤ, v = j * (2 : ℚ) ^ (-24 : ℤ)) (hlt : |v| < (2 : ℚ) ^ (-14 : ℤ)) (σ : Bool) : half.Representable σ |v| := by
  obtain ⟨j, hj⟩ := hj
  have hp : (0 : ℚ) < (2 : ℚ) ^ (-24 : ℤ) := by positivity
  have e : |v| = |(j : ℚ)| * (2 : ℚ) ^ (-24 : ℤ) := by rw [hj, abs_mul, abs_of_pos hp]
  refine form_value (F := half) (by decide) (K := j) (q := -24) ?_ (by decide) e (hlt.trans ?_) σ
  · rw [e] at hlt
    have h1 : |(j : ℚ)| < 2 ^ 10 := by
      norm_num at hlt ⊢
      linarith
    have h2 : |j| < 2 ^ 10 := by exact_mod_cast h1
    exact h2.trans (by decide)
  · exact zpow_lt_zpow_right₀ (by norm_num) (by decide)

/-- C112, sums and differences: float64 computes them exactly, and `NewFromFloat64` makes the IEEE result of them, below 2^16. -/
theorem C112_sum (hf : half.decode f.bits.toNat = .num s m) (hg : half.decode g.bits.toNat = .num s' m') {r : F64} {v : ℚ}
    (hv : v = signed s m + signed s' m' ∨ v = signed s m - signed s' m') (hr : NearestDouble v r) :
    ∃ σ, double.decode r.toNat = .num σ |v| ∧ signed σ |v| = v ∧
      (|v| < 2 ^ 16 → ∃ h acc, newFromFloat64 r = .ok (h, acc) ∧ half.RoundsTo σ |v| h.bits.toNat) := by
  obtain ⟨⟨j, hj⟩, a1, a2⟩ := half_value hf
  obtain ⟨⟨j', hj'⟩, b1, b2⟩ := half_value hg
  have hs := BigFloat.signed_abs (s := s) a1
  have hs' := BigFloat.signed_abs (s := s') b1
  have hmul : ∃ j : ℤ, v = j * (2 : ℚ) ^ (-24 : ℤ) := by
    rcases hv with h | h
    · exact ⟨j + j', by rw [h, hj, hj']; push_cast; ring⟩
    · exact ⟨j - j', by rw [h, hj, hj']; push_cast; ring⟩
  have hlt : |v| < 2 ^ 17 := by
    rcases hv with h | h
    · rw [h]
      refine (abs_add_le _ _).trans_lt ?_
      rw [hs, hs']; norm_num at a2 b2 ⊢; linarith
    · rw [h]
      refine (abs_sub _ _).trans_lt ?_
      rw [hs, hs']; norm_num at a2 b2 ⊢; linarith
  obtain ⟨σ, h1, h2⟩ := sum_exact hmul hlt hr
  refine ⟨σ, h1, h2, fun h16 => ?_⟩
  have hn : Nearest64 r := by
    refine C06_partial r (.inl ⟨σ, |v|, h1, ?_⟩)
    rcases le_or_gt ((2 : ℚ) ^ (-14 : ℤ)) |v| with h | h
    · exact .inl ⟨h, by exact_mod_cast h16⟩
    · exact .inr (small_half hmul h σ)
  obtain ⟨h, acc, e1, e2⟩ := hn
  rw [h1] at e2
  exact ⟨h, acc, e1, e2⟩

/-- C112, products: float64 computes them exactly, and `NewFromFloat64` makes the IEEE result of them in the normal range. -/
theorem C112_product (hf : half.decode f.bits.toNat = .num s m) (hg : half.decode g.bits.toNat = .num s' m') {r : F64}
    (hr : NearestDouble (signed s m * signed s' m') r) :
    ∃ σ, double.decode r.toNat = .num σ (m * m') ∧ signed σ (m * m') = signed s m * signed s' m' ∧
      ((2 : ℚ) ^ (-14 : ℤ) ≤ m * m' → m * m' < 2 ^ 16 → ∃ h acc, newFromFloat64 r = .ok (h, acc) ∧ half.RoundsTo σ (m * m') h.bits.toNat) := by
  obtain ⟨-, a1, a2⟩ := half_value hf
  obtain ⟨-, b1, b2⟩ := half_value hg
  obtain ⟨K, q, k1, k2, k3⟩ := value_form hf
  obtain ⟨K', q', k1', k2', k3'⟩ := value_form hg
  rw [show half.qmin = -24 by decide] at k2 k2'
  have hKK : |K * K'| < 2 ^ 53 := by
    rw [abs_mul]
    calc |K| * |K'| < 2 ^ 11 * 2 ^ 11 := mul_lt_mul'' k1 k1' (abs_nonneg _) (abs_nonneg _)
      _ < 2 ^ 53 := by norm_num
  have habs : |signed s m * signed s' m'| = m * m' := by rw [abs_mul, BigFloat.signed_abs a1, BigFloat.signed_abs b1]
  have hlt : m * m' < 2 ^ 32 := by
    calc m * m' < 2 ^ 16 * 2 ^ 16 := mul_lt_mul'' a2 b2 a1 b1
      _ = 2 ^ 32 := by norm_num
  obtain ⟨σ, h1, h2⟩ := nearest_self (K := K * K') (q := q + q') hKK (by omega) (by rw [k3, k3', zpow_add₀ (by norm_num)]; push_cast; ring)
    (by rw [habs]; exact hlt.trans (lt_of_le_of_lt (by norm_num) (zpow_lt_zpow_right₀ (by norm_num) (by norm_num : (32 : ℤ) < 1024)))) hr
  rw [habs] at h1 h2
  refine ⟨σ, h1, h2, fun g1 g2 => ?_⟩
  obtain ⟨h, acc, e1, e2⟩ := C06_partial r (.inl ⟨σ, _, h1, .inl ⟨g1, by exact_mod_cast g2⟩⟩)
  rw [h1] at e2
  exact ⟨h, acc, e1, e2⟩

/-- What is half way between two halves is a double. -/
theorem halfway_half {n : ℕ} (hn : n < half.infCode) : ∃ k, k < double.infCode ∧ 2 * double.magc k = half.magc n + half.magc (n + 1) := by
  obtain ⟨K, e, hK, hKe⟩ := halfway_fits half (p := 12) hn (by decide)
  obtain ⟨k, N, hs⟩ := Strconv.exists_split half hn
  have h1 := hs.lt
  have hk : k + 2 < 2 ^ half.w := by
    rcases hs.k_lt with h | ⟨-, h⟩
    · exact h
    · exact absurd h (by decide)
  change k + 2 < 2 ^ 5 at hk
  change N < 2 ^ (10 + 1) at h1
  obtain ⟨c, hc, e⟩ := exists_code double (by decide) (N := 2 * N + 1) (q := half.qmin + k - 1) (by change 2 * N + 1 < 2 ^ 53; omega)
    (by norm_num [double, half, Format.qmin, Format.bias]; omega) (by
      have hN : ((2 * N + 1 : ℕ) : ℚ) < (2 : ℚ) ^ (12 : ℤ) := by
        have : 2 * N + 1 < 2 ^ 12 := by omega
        exact_mod_cast this
      refine lt_of_lt_of_le (mul_lt_mul_of_pos_right hN (zpow_pos (by norm_num) _)) ?_
      rw [← zpow_add₀ (by norm_num)]
      refine zpow_le_zpow_right₀ (by norm_num) ?_
      norm_num [double, half, Format.qmin, Format.bias]
      omega)
  refine ⟨c, hc, ?_⟩
  rw [hs.upper_mid, e]
  push_cast
  ring

/-- A quotient of integers of 11 bits is not near to a point half way between two halves. -/
theorem half_quotient_not_misled {N M i j : ℤ} (hM0 : 0 < M) (hN : N < 2 ^ 11) (hM : M < 2 ^ 11) {a b : ℚ}
    (ha : a * (M * (2 : ℚ) ^ j) = N * (2 : ℚ) ^ i) (hb : |a - b| ≤ a / 2 ^ 24) : ¬ Misled half a b := by
  have hpw : ∀ e : ℤ, (0 : ℚ) < (2 : ℚ) ^ e := fun e => zpow_pos (by norm_num) e
  have hMq : (0 : ℚ) < M := by exact_mod_cast hM0
  have hMq' : (M : ℚ) < 2 ^ 11 := by exact_mod_cast hM
  have hNq' : (N : ℚ) < 2 ^ 11 := by exact_mod_cast hN
  have hMj : (0 : ℚ) < M * (2 : ℚ) ^ j := mul_pos hMq (hpw j)
  rintro ⟨c, hc, hif⟩
  have hne : a - b ≠ 0 := by split at hif <;> intro h <;> linarith
  rw [halfway_iff half (by decide)] at hc
  obtain ⟨K, e, hK, hKe⟩ := halfway_fits half (p := 12) hc.1 (by decide)
  have hbK : b = K * (2 : ℚ) ^ e := by linarith [hc.2]
  have hKq : (K : ℚ) < 2 ^ 12 := by exact_mod_cast (abs_lt.1 hK).2
  have hdpos : 0 < |a - b| := abs_pos.2 hne
  have hprod : |a - b| * (M * (2 : ℚ) ^ j) = |(a - b) * (M * (2 : ℚ) ^ j)| := by rw [abs_mul, abs_of_pos hMj]
  have hprod0 : (a - b) * (M * (2 : ℚ) ^ j) ≠ 0 := mul_ne_zero hne hMj.ne'
  have hexp : (a - b) * (M * (2 : ℚ) ^ j) = N * (2 : ℚ) ^ i - K * M * (2 : ℚ) ^ (e + j) := by
    rw [sub_mul, ha, hbK, zpow_add₀ (by norm_num)]; ring
  rcases le_total i (e + j) with hij | hij
  · obtain ⟨d, hd⟩ : ∃ d : ℕ, e + j = i + d := ⟨(e + j - i).toNat, by omega⟩
    have h1 : (a - b) * (M * (2 : ℚ) ^ j) = ((N - K * M * 2 ^ d : ℤ) : ℚ) * (2 : ℚ) ^ i := by
      rw [hexp, hd, zpow_add₀ (by norm_num), zpow_natCast]; push_cast; ring
    have h2 := one_le_abs (hpw i) (h1 ▸ hprod0)
    rw [← h1, ← hprod] at h2
    have h3 : a * (M * (2 : ℚ) ^ j) < 2 ^ 11 * |a - b| * (M * (2 : ℚ) ^ j) := by
      rw [ha, mul_assoc]
      exact (mul_lt_mul_of_pos_right hNq' (hpw i)).trans_le (mul_le_mul_of_nonneg_left h2 (by norm_num))
    have h4 := lt_of_mul_lt_mul_right h3 hMj.le
    norm_num at hb h4
    linarith
  · obtain ⟨d, hd⟩ : ∃ d : ℕ, i = e + j + d := ⟨(i - (e + j)).toNat, by omega⟩
    have h1 : (a - b) * (M * (2 : ℚ) ^ j) = ((N * 2 ^ d - K * M : ℤ) : ℚ) * (2 : ℚ) ^ (e + j) := by
      rw [hexp, hd, zpow_add₀ (by norm_num) (e + j) d, zpow_natCast]; push_cast; ring
    have h2 := one_le_abs (hpw (e + j)) (h1 ▸ hprod0)
    rw [← h1, ← hprod, zpow_add₀ (by norm_num), ← mul_assoc] at h2
    have h3 := le_of_mul_le_mul_right h2 (hpw j)
    have h4 : |a - b| * M < |a - b| * 2 ^ 11 := mul_lt_mul_of_pos_left hMq' hdpos
    have h5 : b < 2 ^ 12 * (2 : ℚ) ^ e := by rw [hbK]; exact mul_lt_mul_of_pos_right hKq (hpw e)
    have h6 := (abs_le.1 (le_refl |a - b|)).2
    norm_num at hb h4 h5
    linarith

/-- C112, quotients: float64 rounds them, and `NewFromFloat64` rounds again, and yet makes the IEEE result of them in the normal range. -/
theorem C112_quotient (hf : half.decode f.bits.toNat = .num s m) (hg : half.decode g.bits.toNat = .num s' m') (h0' : m' ≠ 0) {r : F64}
    (hr : NearestDouble (signed s m / signed s' m') r) (h1 : (2 : ℚ) ^ (-14 : ℤ) ≤ m / m') (h2 : m / m' < half.overflowAt) :
    ∃ h acc, newFromFloat64 r = .ok (h, acc) ∧ half.RoundsTo (s != s') (m / m') h.bits.toNat := by
  obtain ⟨-, a1, a2⟩ := half_value hf
  obtain ⟨-, b1, b2⟩ := half_value hg
  have hm' : 0 < m' := lt_of_le_of_ne b1 (Ne.symm h0')
  have hv0 : 0 < m / m' := lt_of_lt_of_le (by positivity) h1
  have hm : 0 < m := by
    rcases a1.lt_or_eq with h | h
    · exact h
    · rw [← h, zero_div] at hv0; exact absurd hv0 (lt_irrefl _)
  have hsg : signed s m / signed s' m' = signed (s != s') (m / m') := by unfold signed; cases s <;> cases s' <;> simp [neg_div, div_neg]
  have hround : double.RoundsTo (s != s') (m / m') r.toNat := by
    unfold NearestDouble at hr
    rw [hsg, BigFloat.signed_abs hv0.le] at hr
    cases hss : (s != s')
    · rw [hss] at hr
      simpa [signed, hv0.ne', not_lt.2 hv0.le] using hr
    · rw [hss] at hr
      simpa [signed, hv0.ne', hv0] using hr
  have hov : half.overflowAt = 65520 := by norm_num [Format.overflowAt, half, Format.bias]
  rw [hov] at h2
  have hdov : m / m' < double.overflowAt := by
    refine h2.trans_le (le_trans ?_ (show (2 : ℚ) ^ (1023 : ℤ) ≤ double.overflowAt from ?_))
    · exact le_trans (by norm_num) (zpow_le_zpow_right₀ (by norm_num) (by norm_num : (16 : ℤ) ≤ 1023))
    · rw [show double.overflowAt = (2 : ℚ) ^ (1023 : ℤ) * (2 - 1 / 2 ^ 53) by norm_num [Format.overflowAt, double, Format.bias]]
      exact le_mul_of_one_le_right (zpow_nonneg (by norm_num) _) (by norm_num)
  obtain ⟨q, hq, herr⟩ := nearest_err double (by decide) hv0.le hdov hround
  have hq0 : 0 ≤ q := decode_nonneg hq
  have hsmall : (2 : ℚ) ^ (double.qmin - 1) ≤ m / m' / 2 ^ 40 := by
    rw [show double.qmin - 1 = -1075 by decide]
    refine le_trans (zpow_le_zpow_right₀ (by norm_num) (by norm_num : (-1075 : ℤ) ≤ -54)) ?_
    rw [le_div_iff₀ (by norm_num)]
    refine le_trans (by norm_num) h1
  have herr' : |m / m' - q| ≤ m / m' / 2 ^ 40 := by
    rw [abs_sub_comm]
    refine herr.trans (max_le ?_ hsmall)
    rw [show -((double.t : ℤ) + 1) = -53 by decide, div_eq_mul_inv (m / m')]
    exact mul_le_mul_of_nonneg_left (by norm_num) hv0.le
  clear herr hsmall
  -- no double is nearer
  have near : ∀ {k}, k < double.infCode → |m / m' - q| ≤ |m / m' - double.magc k| := by
    intro k hk
    have h := hround
    unfold Format.RoundsTo at h
    rw [if_neg (not_le.2 hdov)] at h
    obtain ⟨q', hq', hn, -⟩ := h
    rw [hq] at hq'
    obtain rfl := (Datum.num.inj hq').2
    have h := hn _ _ _ (double.decode_code (s != s') hk)
    rwa [signed_sub, signed_sub] at h
  have near2 : ∀ {n}, n < half.infCode → |m / m' - q| ≤ |m / m' - (half.magc n + half.magc (n + 1)) / 2| := by
    intro n hn
    obtain ⟨k, hk, e⟩ := halfway_half hn
    rw [show (half.magc n + half.magc (n + 1)) / 2 = double.magc k by linarith]
    exact near hk
  have hqlo : (2 : ℚ) ^ (-14 : ℤ) ≤ q := by
    obtain ⟨k, hk, e⟩ := exists_code double (by decide) (N := 1) (q := -14) (by decide) (by decide) (by
      rw [Nat.cast_one, one_mul]; exact zpow_lt_zpow_right₀ (by norm_num) (by decide))
    by_contra hlt
    push Not at hlt
    have h := near hk
    rw [e, Nat.cast_one, one_mul, abs_of_pos (sub_pos.2 (hlt.trans_le h1)), abs_of_nonneg (sub_nonneg.2 h1)] at h
    exact absurd ((sub_le_sub_iff_left _).1 h) (not_le.2 hlt)
  have hqhi : q < 2 ^ (16 : ℤ) := by
    have h := (abs_le.1 herr').1
    norm_num at h ⊢
    linarith
  obtain ⟨h, acc, e1, e2⟩ := C06_partial r (.inl ⟨_, q, hq, .inl ⟨hqlo, hqhi⟩⟩)
  rw [hq] at e2
  refine ⟨h, acc, e1, ?_⟩
  obtain ⟨K, i, k1, -, k3⟩ := value_form hf
  obtain ⟨K', i', k1', -, k3'⟩ := value_form hg
  have hform : ∀ {s : Bool} {m : ℚ} {K i : ℤ}, 0 < m → signed s m = K * (2 : ℚ) ^ i → m = ((|K| : ℤ) : ℚ) * (2 : ℚ) ^ i ∧ 0 < |K| := by
    intro s m K i hm h
    have hp : (0 : ℚ) < (2 : ℚ) ^ i := zpow_pos (by norm_num) i
    have h2 := congrArg abs h
    rw [BigFloat.signed_abs hm.le, abs_mul, abs_of_pos hp] at h2
    have h3 : m = ((|K| : ℤ) : ℚ) * (2 : ℚ) ^ i := by rw [h2]; push_cast; rfl
    refine ⟨h3, abs_pos.2 ?_⟩
    rintro rfl
    simp at h3
    linarith
  obtain ⟨c1, -⟩ := hform hm k3
  obtain ⟨c1', c2'⟩ := hform hm' k3'
  refine (twice_of half (by decide) (by decide) hv0.le hq0 ?_ ?_ e2).2
    (half_quotient_not_misled (i := i) (j := i') c2' k1 k1' (by rw [← c1, ← c1']; exact div_mul_cancel₀ m hm'.ne') (herr'.trans (div_le_div_of_nonneg_left hv0.le (by norm_num) (by norm_num))))
  · intro n hn hle
    by_contra hlt
    push Not at hlt
    have h := near2 hn
    rw [abs_of_pos (show 0 < m / m' - q by linarith), abs_of_nonneg (show 0 ≤ m / m' - (half.magc n + half.magc (n + 1)) / 2 by linarith)] at h
    linarith
  · intro n hn hle
    by_contra hlt
    push Not at hlt
    have h := near2 hn
    rw [abs_of_neg (show m / m' - q < 0 by linarith), abs_of_nonpos (show m / m' - (half.magc n + half.magc (n + 1)) / 2 ≤ 0 by linarith)] at h
    linarith

/-- What an interval of doubles is, in terms of the significand. -/
theorem nearest_by_interval {v : ℚ} {k N : ℕ} {r : F64} (hv : 0 < v) (hN : 2 ^ 52 < N) (hN2 : N < 2 ^ 53) (hk : k + 3 ≤ 2 ^ 11) (s : Bool)
    (hr : r.toNat = double.signPart s + (k * 2 ^ 52 + N)) (h1 : (2 * (N : ℚ) - 1) * (2 : ℚ) ^ (-1074 + k : ℤ) < 2 * v)
    (h2 : 2 * v < (2 * (N : ℚ) + 1) * (2 : ℚ) ^ (-1074 + k : ℤ)) : NearestDouble (signed s v) r := by
  have hn : k * 2 ^ 52 + N < double.infCode := by
    show k * 2 ^ 52 + N < (2 ^ 11 - 1) * 2 ^ 52
    omega
  have e0 : double.magc (k * 2 ^ 52 + N) = N * (2 : ℚ) ^ (-1074 + k : ℤ) := double.magc_eq (k := k) (N := N) hN2.le (.inr hN.le)
  have e1 : double.magc (k * 2 ^ 52 + N + 1) = (N + 1) * (2 : ℚ) ^ (-1074 + k : ℤ) := magc_succ double (k := k) (N := N) hN2 (.inr hN.le)
  have e2 : double.magc (k * 2 ^ 52 + N - 1) = (N - 1) * (2 : ℚ) ^ (-1074 + k : ℤ) := magc_pred double (k := k) (N := N) hN2 (by omega) (.inr hN)
  have h : double.RoundsTo s v r.toNat := by
    rw [hr, roundsTo_iff double (by decide) (by decide) s hn hv.le]
    unfold InInterval
    rw [e0, e1, e2]
    generalize (2 : ℚ) ^ (-1074 + k : ℤ) = P at *
    refine ⟨fun _ => ⟨?_, fun _ => ?_⟩, ?_, fun _ => ?_⟩ <;> nlinarith
  unfold NearestDouble
  rw [BigFloat.signed_abs hv.le]
  cases s
  · simpa [signed, hv.ne', not_lt.2 hv.le] using h
  · simpa [signed, hv.ne', hv] using h

theorem one_half : half.decode (⟨0x3C00⟩ : Float).bits.toNat = .num false 1 := by
  show half.decode 0x3C00 = _
  norm_num [half, Format.decode, Format.bias]

-- -11/8 - 1 = -19/8, -11/8 times itself is 121/64, and 1 divided by -11/8 is rounded
example := C112_sum (f := ⟨0xBD80⟩) (g := ⟨0x3C00⟩) (r := 0xC003000000000000) Sample.x_half one_half (.inr rfl)
  (by
    rw [show signed true (11 / 8) - signed false 1 = signed true (19 / 8) by norm_num [signed]]
    exact nearest_by_interval (k := 1023) (N := 0x13000000000000) (by norm_num) (by norm_num) (by norm_num) (by norm_num) true (by decide) (by norm_num) (by norm_num))
example := C112_product (f := ⟨0xBD80⟩) (g := ⟨0xBD80⟩) (r := 0x3FFE400000000000) Sample.x_half Sample.x_half
  (by
    rw [show signed true (11 / 8) * signed true (11 / 8) = signed false (121 / 64) by norm_num [signed]]
    exact nearest_by_interval (k := 1022) (N := 0x1E400000000000) (by norm_num) (by norm_num) (by norm_num) (by norm_num) false (by decide) (by norm_num) (by norm_num))
example := C112_quotient (f := ⟨0x3C00⟩) (g := ⟨0xBD80⟩) (r := 0xBFE745D1745D1746) one_half Sample.x_half (by norm_num)
  (by
    rw [show signed false 1 / signed true (11 / 8) = signed true (8 / 11) by norm_num [signed]]
    exact nearest_by_interval (k := 1021) (N := 0x1745D1745D1746) (by norm_num) (by norm_num) (by norm_num) (by norm_num) true (by decide) (by norm_num) (by norm_num))
  (by norm_num) (by norm_num [Format.overflowAt, half, Format.bias])

/-- C112: below the normal range products need not be nearest, although float64 has them exactly: 3 units of 2^-24 times 1/2 are 3/2 units, and come back as
one; the even neighbour of the two is 2. -/
theorem C112_below : half.decode 3 = .num false (3 * (2 : ℚ) ^ (-24 : ℤ)) ∧ half.decode 0x3800 = .num false (1 / 2) ∧
    double.decode (0x3E78000000000000 : F64).toNat = .num false (3 / 2 * (2 : ℚ) ^ (-24 : ℤ)) ∧ newFromFloat64 0x3E78000000000000 = .ok (⟨1⟩, .exact) ∧
    ¬ half.RoundsTo false (3 / 2 * (2 : ℚ) ^ (-24 : ℤ)) 1 := by
  refine ⟨by norm_num [half, Format.decode, Format.bias], by norm_num [half, Format.decode, Format.bias], ?_, by decide +kernel, ?_⟩
  · show double.decode 0x3E78000000000000 = _
    norm_num [double, Format.decode, Format.bias]
  · have h := roundsTo_iff half (by decide) (by decide) false (n := 1) (by decide) (q := 3 / 2 * (2 : ℚ) ^ (-24 : ℤ)) (by positivity)
    rw [show half.signPart false + 1 = 1 from rfl] at h
    rw [h, interval_low half (by decide) (by positivity), show half.qmin = -24 by decide]
    intro h
    norm_num [NearestEven] at h

end GoFloat.Binary16
