import Verif.Props.ViaSingle
/-
C114: a product and a sum of halves in float64.
-/
namespace GoFloat.Binary16
open Spec Float128ppc

variable {f g h : Float} {s s' s'' : Bool} {m m' m'' : ℚ}

/-- Rounding to a double first, and to a half afterwards, is rounding to a half, if the double is not misleading. -/
theorem via_double {v : ℚ} {r : F64} {σ : Bool} (hround : double.RoundsTo σ v r.toNat) (h1 : (2 : ℚ) ^ (-14 : ℤ) ≤ v) (h2 : v < half.overflowAt)
    (hnm : ∀ q, |v - q| ≤ v / 2 ^ 53 → ¬ Misled half v q) : ∃ h acc, newFromFloat64 r = .ok (h, acc) ∧ half.RoundsTo σ v h.bits.toNat := by
  have hv0 : 0 < v := lt_of_lt_of_le (by positivity) h1
  have hov : half.overflowAt = 65520 := by norm_num [Format.overflowAt, half, Format.bias]
  rw [hov] at h2
  have hdov : v < double.overflowAt := by
    refine h2.trans_le (le_trans ?_ (show (2 : ℚ) ^ (1023 : ℤ) ≤ double.overflowAt from ?_))
    · exact le_trans (by norm_num) (zpow_le_zpow_right₀ (by norm_num) (by norm_num : (16 : ℤ) ≤ 1023))
    · rw [show double.overflowAt = (2 : ℚ) ^ (1023 : ℤ) * (2 - 1 / 2 ^ 53) by norm_num [Format.overflowAt, double, Format.bias]]
      exact le_mul_of_one_le_right (zpow_nonneg (by norm_num) _) (by norm_num)
  obtain ⟨q, hq, herr⟩ := nearest_err double (by decide) hv0.le hdov hround
  have hq0 : 0 ≤ q := decode_nonneg hq
  have hsmall : (2 : ℚ) ^ (double.qmin - 1) ≤ v / 2 ^ 53 := by
    rw [show double.qmin - 1 = -1075 by decide]
    refine le_trans (zpow_le_zpow_right₀ (by norm_num) (by norm_num : (-1075 : ℤ) ≤ -67)) ?_
    rw [le_div_iff₀ (by norm_num)]
    refine le_trans (by norm_num) h1
  have herr' : |v - q| ≤ v / 2 ^ 53 := by
    rw [abs_sub_comm]
    refine herr.trans (max_le ?_ hsmall)
    rw [show -((double.t : ℤ) + 1) = -53 by decide, div_eq_mul_inv v]
    exact mul_le_mul_of_nonneg_left (by norm_num) hv0.le
  clear herr hsmall
  have near : ∀ {k}, k < double.infCode → |v - q| ≤ |v - double.magc k| := by
    intro k hk
    have h := hround
    unfold Format.RoundsTo at h
    rw [if_neg (not_le.2 hdov)] at h
    obtain ⟨q', hq', hn, -⟩ := h
    rw [hq] at hq'
    obtain rfl := (Datum.num.inj hq').2
    have h := hn _ _ _ (double.decode_code σ hk)
    rwa [signed_sub, signed_sub] at h
  have near2 : ∀ {n}, n < half.infCode → |v - q| ≤ |v - (half.magc n + half.magc (n + 1)) / 2| := by
    intro n hn
    obtain ⟨k, hk, e⟩ := halfway_half hn
    rw [show (half.magc n + half.magc (n + 1)) / 2 = double.magc k by linarith]
    exact near hk
  have hqlo : (2 : ℚ) ^ (-14 : ℤ) ≤ q := by
    obtain ⟨k, hk, e⟩ := exists_code double (by decide) (N := 1) (q := -14) (by decide) (by decide) (by
      rw [Nat.cast_one, one_mul]; exact zpow_lt_zpow_right₀ (by norm_num) (by decide))
    by_contra hlt
    push Not at hlt
    have h := near hk
    rw [e, Nat.cast_one, one_mul, abs_of_pos (sub_pos.2 (hlt.trans_le h1)), abs_of_nonneg (sub_nonneg.2 h1)] at h
    exact absurd ((sub_le_sub_iff_left _).1 h) (not_le.2 hlt)
  have hqhi : q < 2 ^ (16 : ℤ) := by
    have h := (abs_le.1 herr').1
    norm_num at h ⊢
    linarith
  obtain ⟨h, acc, e1, e2⟩ := C06_partial r (.inl ⟨_, q, hq, .inl ⟨hqlo, hqhi⟩⟩)
  rw [hq] at e2
  refine ⟨h, acc, e1, (twice_of half (by decide) (by decide) hv0.le hq0 ?_ ?_ e2).2 (hnm q herr')⟩
  · intro n hn hle
    by_contra hlt
    push Not at hlt
    have h := near2 hn
    rw [abs_of_pos (show 0 < v - q by linarith), abs_of_nonneg (show 0 ≤ v - (half.magc n + half.magc (n + 1)) / 2 by linarith)] at h
    linarith
  · intro n hn hle
    by_contra hlt
    push Not at hlt
    have h := near2 hn
    rw [abs_of_neg (show v - q < 0 by linarith), abs_of_nonpos (show v - (half.magc n + half.magc (n + 1)) / 2 ≤ 0 by linarith)] at h
    linarith

/-- The midpoints between halves are multiples of 2^-25. -/
theorem halfway_grid {n : ℕ} (hn : n < half.infCode) :
    ∃ K e : ℤ, |K| < 2 ^ 12 ∧ -25 ≤ e ∧ half.magc n + half.magc (n + 1) = 2 * (K * (2 : ℚ) ^ e) := by
  obtain ⟨k, N, hs⟩ := Strconv.exists_split half hn
  have h1 := hs.lt
  change N < 2 ^ (10 + 1) at h1
  refine ⟨2 * N + 1, half.qmin + k - 1, ?_, by rw [show half.qmin = -24 by decide]; omega, by rw [hs.upper_mid]; push_cast; ring⟩
  rw [abs_of_nonneg (by positivity)]
  omega

/-- A number of 22 bits plus a half is not near to a midpoint between halves. -/
theorem fused_far {A B C i j e : ℤ} {x y w : ℚ} (hj : -24 ≤ j) (he : -25 ≤ e) (hx : x = A * (2 : ℚ) ^ i) (hy : y = B * (2 : ℚ) ^ j) (hw : w = C * (2 : ℚ) ^ e)
    (hA : |A| < 2 ^ 22) (hB : |B| < 2 ^ 11) (hC : |C| < 2 ^ 12) (hyw : y ≠ w) (hne : x + y ≠ w) (hlt : |x + y| < 2 ^ 16) : |x + y| / 2 ^ 53 < |x + y - w| := by
  have hpw : ∀ e : ℤ, (0 : ℚ) < (2 : ℚ) ^ e := fun e => zpow_pos (by norm_num) e
  have bound : ∀ {A i : ℤ} {x : ℚ} {p : ℕ}, x = A * (2 : ℚ) ^ i → |A| < 2 ^ p → |x| < 2 ^ p * (2 : ℚ) ^ i := by
    intro A i x p hx hA
    rw [hx, abs_mul, abs_of_pos (hpw i)]
    exact mul_lt_mul_of_pos_right (by exact_mod_cast hA) (hpw i)
  have bx := bound hx hA
  have bY := bound hy hB
  have bw := bound hw hC
  have t1 : |w| ≤ |x + y - w| + |x + y| := by
    rw [abs_sub_comm]; have := abs_add_le (w - (x + y)) (x + y); rwa [sub_add_cancel] at this
  have t1' : |x + y| ≤ |x + y - w| + |w| := by
    have := abs_add_le (x + y - w) w; rwa [sub_add_cancel] at this
  have t2 : |y - w| ≤ |x + y - w| + |x| := by
    have := abs_sub (x + y - w) x; rwa [show x + y - w - x = y - w by ring] at this
  have t3 : |x + y| ≤ |x| + |y| := abs_add_le x y
  have e25 : (2 : ℚ) ^ (-25 : ℤ) ≤ (2 : ℚ) ^ e := zpow_le_zpow_right₀ (by norm_num) he
  by_contra hle
  push Not at hle
  have hd0 : 0 < |x + y - w| := abs_pos.2 (sub_ne_zero.2 hne)
  rcases le_or_gt (-24) i with hi | hi
  · obtain ⟨S, hS⟩ : ∃ S : ℤ, x + y = S * (2 : ℚ) ^ (-24 : ℤ) := by
      obtain ⟨d, hd⟩ : ∃ d : ℕ, i = -24 + d := ⟨(i + 24).toNat, by omega⟩
      obtain ⟨d', hd'⟩ : ∃ d : ℕ, j = -24 + d := ⟨(j + 24).toNat, by omega⟩
      exact ⟨A * 2 ^ d + B * 2 ^ d', by rw [hx, hy, hd, hd', zpow_add₀ (by norm_num), zpow_add₀ (by norm_num), zpow_natCast, zpow_natCast]; push_cast; ring⟩
    rcases apart hS hw hne with h | h <;> norm_num at h hle e25 hlt <;> linarith
  · obtain ⟨S, hS⟩ : ∃ S : ℤ, x + y = S * (2 : ℚ) ^ i := by
      obtain ⟨d, hd⟩ : ∃ d : ℕ, j = i + d := ⟨(j - i).toNat, by omega⟩
      exact ⟨A + B * 2 ^ d, by rw [hx, hy, hd, zpow_add₀ (by norm_num), zpow_natCast]; push_cast; ring⟩
    norm_num at bx bY bw hle
    rcases apart hS hw hne with h | h
    · rcases apart hy hw hyw with h' | h'
      · linarith
      · linarith
    · linarith

/-- C114: x*y + z, computed with float64 values, is x*y + z rounded once to a half: the product is exact in float64, so it makes no difference whether the
compiler fuses the two operations, and the rounding of the sum to float64 does not disturb the rounding to a half. -/
theorem C114_fused (hf : half.decode f.bits.toNat = .num s m) (hg : half.decode g.bits.toNat = .num s' m') (hh : half.decode h.bits.toNat = .num s'' m'')
    {p r : F64} {v : ℚ} (hp : NearestDouble (signed s m * signed s' m') p) (hv : v = signed s m * signed s' m' + signed s'' m'') (hr : NearestDouble v r)
    (h1 : (2 : ℚ) ^ (-14 : ℤ) ≤ |v|) (h2 : |v| < half.overflowAt) :
    (∃ σ, double.decode p.toNat = .num σ (m * m') ∧ signed σ (m * m') = signed s m * signed s' m') ∧
      ∃ k acc, newFromFloat64 r = .ok (k, acc) ∧ half.RoundsTo (decide (v < 0)) |v| k.bits.toNat := by
  refine ⟨by obtain ⟨σ, e1, e2, -⟩ := C112_product hf hg hp; exact ⟨σ, e1, e2⟩, ?_⟩
  have hv0 : v ≠ 0 := by
    rintro rfl
    rw [abs_zero] at h1
    exact absurd h1 (not_le.2 (by positivity))
  unfold NearestDouble at hr
  rw [if_neg hv0] at hr
  refine via_double hr h1 h2 ?_
  rintro q herr ⟨n, hn, hif⟩
  have hov : half.overflowAt = 65520 := by norm_num [Format.overflowAt, half, Format.bias]
  rw [hov] at h2
  have hne : |v| ≠ q := by split at hif <;> intro h <;> linarith
  have hn' := hn
  rw [halfway_iff half (by decide)] at hn'
  obtain ⟨C, e, hC, he, hCe⟩ := halfway_grid hn'.1
  have hq : q = C * (2 : ℚ) ^ e := by linarith [hn'.2]
  have hq0 : 0 ≤ q := by
    have := (abs_le.1 herr).2
    have hp := abs_nonneg v
    norm_num at this
    linarith
  obtain ⟨w, hw, C', hC', hwC, hdist⟩ : ∃ w, |w| = q ∧ ∃ C' : ℤ, |C'| < 2 ^ 12 ∧ w = C' * (2 : ℚ) ^ e ∧ |v - w| = |(|v| - q)| := by
    rcases le_total 0 v with h | h
    · exact ⟨q, abs_of_nonneg hq0, C, hC, hq, by rw [abs_of_nonneg h]⟩
    · refine ⟨-q, by rw [abs_neg, abs_of_nonneg hq0], -C, by rwa [abs_neg], by rw [hq]; push_cast; ring, ?_⟩
      rw [abs_of_nonpos h, ← abs_neg]; congr 1; ring
  obtain ⟨K, i, k1, -, k3⟩ := value_form hf
  obtain ⟨K', i', k1', -, k3'⟩ := value_form hg
  obtain ⟨K'', i'', k1'', k2'', k3''⟩ := value_form hh
  have hA : |K * K'| < 2 ^ 22 := by
    rw [abs_mul]
    calc |K| * |K'| < 2 ^ 11 * 2 ^ 11 := mul_lt_mul'' k1 k1' (abs_nonneg _) (abs_nonneg _)
      _ = 2 ^ 22 := by norm_num
  have hx : signed s m * signed s' m' = ((K * K' : ℤ) : ℚ) * (2 : ℚ) ^ (i + i') := by rw [k3, k3', zpow_add₀ (by norm_num)]; push_cast; ring
  rw [← hdist, hv] at herr
  refine absurd herr (not_le.2 (fused_far k2'' he hx k3'' hwC hA k1'' hC' (fun h => half_ne_halfway hh hn (by rw [h, hw])) ?_ ?_))
  · intro h
    rw [← hv] at h
    rw [h] at hne
    exact hne hw
  · rw [← hv]
    exact h2.trans (by norm_num)

-- (-11/8) * (-11/8) + 1 = 185/64
example := C114_fused (f := ⟨0xBD80⟩) (g := ⟨0xBD80⟩) (h := ⟨0x3C00⟩) (p := 0x3FFE400000000000) (r := 0x4007200000000000) (v := 185 / 64)
  Sample.x_half Sample.x_half one_half
  (by
    rw [show signed true (11 / 8) * signed true (11 / 8) = signed false (121 / 64) by norm_num [signed]]
    exact nearest_by_interval (k := 1022) (N := 0x1E400000000000) (by norm_num) (by norm_num) (by norm_num) (by norm_num) false (by decide) (by norm_num) (by norm_num))
  (by norm_num [signed])
  (by
    rw [show (185 / 64 : ℚ) = signed false (185 / 64) by norm_num [signed]]
    exact nearest_by_interval (k := 1023) (N := 0x17200000000000) (by norm_num) (by norm_num) (by norm_num) (by norm_num) false (by decide) (by norm_num) (by norm_num))
  (by norm_num) (by norm_num [Format.overflowAt, half, Format.bias])

/-- C114: float32 is too small for this. 3 * (683/1024) + 2^-24 is above the midpoint 2 + 2^-10 between two halves, float32 rounds it to the midpoint, and
`NewFromFloat32` makes 2 of that, which is the farther one of the two. -/
theorem C114_single_wrong : half.decode 0x4200 = .num false 3 ∧ half.decode 0x3956 = .num false (683 / 1024) ∧ half.decode 1 = .num false ((2 : ℚ) ^ (-24 : ℤ)) ∧
    NearestSingle (3 * (683 / 1024) + (2 : ℚ) ^ (-24 : ℤ)) 0x40001000 ∧ newFromFloat32 0x40001000 = .ok (⟨0x4000⟩, .exact) ∧
    ¬ half.RoundsTo false (3 * (683 / 1024) + (2 : ℚ) ^ (-24 : ℤ)) 0x4000 := by
  refine ⟨by norm_num [half, Format.decode, Format.bias], by norm_num [half, Format.decode, Format.bias], by norm_num [half, Format.decode, Format.bias], ?_,
    by decide +kernel, ?_⟩
  · rw [show (3 * (683 / 1024) + (2 : ℚ) ^ (-24 : ℤ)) = signed false (3 * (683 / 1024) + (2 : ℚ) ^ (-24 : ℤ)) by rfl]
    exact nearest_single_by_interval (k := 127) (N := 0x801000) (by norm_num) (by norm_num) (by norm_num) (by norm_num) false (by decide) (by norm_num) (by norm_num)
  · intro h
    unfold Format.RoundsTo at h
    rw [if_neg (by norm_num [Format.overflowAt, half, Format.bias])] at h
    obtain ⟨q, hq, hn, -⟩ := h
    have e : half.decode 0x4000 = .num false 2 := by norm_num [half, Format.decode, Format.bias]
    rw [e] at hq
    obtain rfl := (Datum.num.inj hq).2
    have h := hn 0x4001 false (2 + (2 : ℚ) ^ (-9 : ℤ)) (by norm_num [half, Format.decode, Format.bias])
    norm_num [signed, abs_le] at h

end GoFloat.Binary16
