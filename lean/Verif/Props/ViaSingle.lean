import Verif.Props.ViaDouble
/-
C113: computing with halves in float32.
-/
namespace GoFloat.Binary16
open Spec Float128ppc

variable {f g : Float} {s s' : Bool} {m m' : ℚ}

/-- `r` is the float32 nearest to the number `v`, ties to even, as the operations of the language on float32 return it for an exact result `v`
(The Go Programming Language Specification, Arithmetic operators, and IEEE 754 arithmetic of the machine); the sign of a zero is left open. -/
def NearestSingle (v : ℚ) (r : F32) : Prop :=
  if v = 0 then ∃ s, single.decode r.toNat = .num s 0 else single.RoundsTo (decide (v < 0)) |v| r.toNat

theorem signed_decide (v : ℚ) : signed (decide (v < 0)) |v| = v := by
  by_cases hn : v < 0
  · simp [signed, hn, abs_of_neg hn]
  · simp [signed, hn, abs_of_nonneg (not_lt.1 hn)]

/-- A number of 24 bits that is not too small and not too large is its own nearest single. -/
theorem nearest_self_single {v : ℚ} {K q : ℤ} {r : F32} (hK : |K| < 2 ^ 24) (hq : -149 ≤ q) (hv : v = K * (2 : ℚ) ^ q) (hlt : |v| < (2 : ℚ) ^ (128 : ℤ))
    (h : NearestSingle v r) : ∃ σ, single.decode r.toNat = .num σ |v| ∧ signed σ |v| = v := by
  unfold NearestSingle at h
  split at h
  · rename_i h0
    obtain ⟨σ, hσ⟩ := h
    exact ⟨σ, by rw [h0, abs_zero]; exact hσ, by rw [h0]; cases σ <;> simp [signed]⟩
  · have hp : (0 : ℚ) < (2 : ℚ) ^ q := zpow_pos (by norm_num) q
    obtain ⟨c, hc⟩ := form_value (F := single) (by decide) (K := K) (q := q) (v := v) hK hq (by rw [hv, abs_mul, abs_of_pos hp]) hlt (decide (v < 0))
    exact ⟨_, round_to_self (by decide) hc h, signed_decide v⟩

/-- C113, products: float32 computes them exactly, and `NewFromFloat32` makes the IEEE result of them in the normal range. -/
theorem C113_product (hf : half.decode f.bits.toNat = .num s m) (hg : half.decode g.bits.toNat = .num s' m') {r : F32}
    (hr : NearestSingle (signed s m * signed s' m') r) :
    ∃ σ, single.decode r.toNat = .num σ (m * m') ∧ signed σ (m * m') = signed s m * signed s' m' ∧
      ((2 : ℚ) ^ (-14 : ℤ) ≤ m * m' → m * m' < 2 ^ 16 → ∃ h acc, newFromFloat32 r = .ok (h, acc) ∧ half.RoundsTo σ (m * m') h.bits.toNat) := by
  obtain ⟨-, a1, a2⟩ := half_value hf
  obtain ⟨-, b1, b2⟩ := half_value hg
  obtain ⟨K, q, k1, k2, k3⟩ := value_form hf
  obtain ⟨K', q', k1', k2', k3'⟩ := value_form hg
  rw [show half.qmin = -24 by decide] at k2 k2'
  have hKK : |K * K'| < 2 ^ 24 := by
    rw [abs_mul]
    calc |K| * |K'| < 2 ^ 11 * 2 ^ 11 := mul_lt_mul'' k1 k1' (abs_nonneg _) (abs_nonneg _)
      _ < 2 ^ 24 := by norm_num
  have habs : |signed s m * signed s' m'| = m * m' := by rw [abs_mul, BigFloat.signed_abs a1, BigFloat.signed_abs b1]
  have hlt : m * m' < 2 ^ 32 := by
    calc m * m' < 2 ^ 16 * 2 ^ 16 := mul_lt_mul'' a2 b2 a1 b1
      _ = 2 ^ 32 := by norm_num
  obtain ⟨σ, h1, h2⟩ := nearest_self_single (K := K * K') (q := q + q') hKK (by omega) (by rw [k3, k3', zpow_add₀ (by norm_num)]; push_cast; ring)
    (by rw [habs]; exact hlt.trans (lt_of_le_of_lt (by norm_num) (zpow_lt_zpow_right₀ (by norm_num) (by norm_num : (32 : ℤ) < 128)))) hr
  rw [habs] at h1 h2
  refine ⟨σ, h1, h2, fun g1 g2 => ?_⟩
  obtain ⟨h, acc, e1, e2⟩ := C06_partial32 r (.inl ⟨σ, _, h1, .inl ⟨g1, by exact_mod_cast g2⟩⟩)
  rw [h1] at e2
  exact ⟨h, acc, e1, e2⟩

/-- What is half way between two halves is a single. -/
theorem halfway_half_single {n : ℕ} (hn : n < half.infCode) : ∃ k, k < single.infCode ∧ 2 * single.magc k = half.magc n + half.magc (n + 1) := by
  obtain ⟨k, N, hs⟩ := Strconv.exists_split half hn
  have h1 := hs.lt
  have hk : k + 2 < 2 ^ half.w := by
    rcases hs.k_lt with h | ⟨-, h⟩
    · exact h
    · exact absurd h (by decide)
  change k + 2 < 2 ^ 5 at hk
  change N < 2 ^ (10 + 1) at h1
  obtain ⟨c, hc, e⟩ := exists_code single (by decide) (N := 2 * N + 1) (q := half.qmin + k - 1) (by change 2 * N + 1 < 2 ^ 24; omega)
    (by norm_num [single, half, Format.qmin, Format.bias]; omega) (by
      have hN : ((2 * N + 1 : ℕ) : ℚ) < (2 : ℚ) ^ (12 : ℤ) := by
        have : 2 * N + 1 < 2 ^ 12 := by omega
        exact_mod_cast this
      refine lt_of_lt_of_le (mul_lt_mul_of_pos_right hN (zpow_pos (by norm_num) _)) ?_
      rw [← zpow_add₀ (by norm_num)]
      refine zpow_le_zpow_right₀ (by norm_num) ?_
      norm_num [single, half, Format.qmin, Format.bias]
      omega)
  refine ⟨c, hc, ?_⟩
  rw [hs.upper_mid, e]
  push_cast
  ring

/-- Rounding to a single first, and to a half afterwards, is rounding to a half, if the single is not misleading. -/
theorem via_single {v : ℚ} {r : F32} {σ : Bool} (hround : single.RoundsTo σ v r.toNat) (h1 : (2 : ℚ) ^ (-14 : ℤ) ≤ v) (h2 : v < half.overflowAt)
    (hnm : ∀ q, |v - q| ≤ v / 2 ^ 24 → ¬ Misled half v q) : ∃ h acc, newFromFloat32 r = .ok (h, acc) ∧ half.RoundsTo σ v h.bits.toNat := by
  have hv0 : 0 < v := lt_of_lt_of_le (by positivity) h1
  have hov : half.overflowAt = 65520 := by norm_num [Format.overflowAt, half, Format.bias]
  rw [hov] at h2
  have hdov : v < single.overflowAt := by
    refine h2.trans ?_
    norm_num [Format.overflowAt, single, Format.bias]
  obtain ⟨q, hq, herr⟩ := nearest_err single (by decide) hv0.le hdov hround
  have hq0 : 0 ≤ q := decode_nonneg hq
  have herr' : |v - q| ≤ v / 2 ^ 24 := by
    rw [abs_sub_comm]
    refine herr.trans (max_le ?_ ?_)
    · rw [show -((single.t : ℤ) + 1) = -24 by decide, div_eq_mul_inv v]
      exact mul_le_mul_of_nonneg_left (by norm_num) hv0.le
    · rw [show single.qmin - 1 = -150 by decide]
      refine le_trans (zpow_le_zpow_right₀ (by norm_num) (by norm_num : (-150 : ℤ) ≤ -38)) ?_
      rw [le_div_iff₀ (by norm_num)]
      exact le_trans (by norm_num) h1
  clear herr
  have near : ∀ {k}, k < single.infCode → |v - q| ≤ |v - single.magc k| := by
    intro k hk
    have h := hround
    unfold Format.RoundsTo at h
    rw [if_neg (not_le.2 hdov)] at h
    obtain ⟨q', hq', hn, -⟩ := h
    rw [hq] at hq'
    obtain rfl := (Datum.num.inj hq').2
    have h := hn _ _ _ (single.decode_code σ hk)
    rwa [signed_sub, signed_sub] at h
  have near2 : ∀ {n}, n < half.infCode → |v - q| ≤ |v - (half.magc n + half.magc (n + 1)) / 2| := by
    intro n hn
    obtain ⟨k, hk, e⟩ := halfway_half_single hn
    rw [show (half.magc n + half.magc (n + 1)) / 2 = single.magc k by linarith]
    exact near hk
  have hqlo : (2 : ℚ) ^ (-14 : ℤ) ≤ q := by
    obtain ⟨k, hk, e⟩ := exists_code single (by decide) (N := 1) (q := -14) (by decide) (by decide) (by
      rw [Nat.cast_one, one_mul]; exact zpow_lt_zpow_right₀ (by norm_num) (by decide))
    by_contra hlt
    push Not at hlt
    have h := near hk
    rw [e, Nat.cast_one, one_mul, abs_of_pos (sub_pos.2 (hlt.trans_le h1)), abs_of_nonneg (sub_nonneg.2 h1)] at h
    exact absurd ((sub_le_sub_iff_left _).1 h) (not_le.2 hlt)
  have hqhi : q < 2 ^ (16 : ℤ) := by
    have h := (abs_le.1 herr').1
    norm_num at h ⊢
    linarith
  obtain ⟨h, acc, e1, e2⟩ := C06_partial32 r (.inl ⟨_, q, hq, .inl ⟨hqlo, hqhi⟩⟩)
  rw [hq] at e2
  refine ⟨h, acc, e1, (twice_of half (by decide) (by decide) hv0.le hq0 ?_ ?_ e2).2 (hnm q herr')⟩
  · intro n hn hle
    by_contra hlt
    push Not at hlt
    have h := near2 hn
    rw [abs_of_pos (show 0 < v - q by linarith), abs_of_nonneg (show 0 ≤ v - (half.magc n + half.magc (n + 1)) / 2 by linarith)] at h
    linarith
  · intro n hn hle
    by_contra hlt
    push Not at hlt
    have h := near2 hn
    rw [abs_of_neg (show v - q < 0 by linarith), abs_of_nonpos (show v - (half.magc n + half.magc (n + 1)) / 2 ≤ 0 by linarith)] at h
    linarith

/-- C113, quotients: float32 rounds them, and `NewFromFloat32` rounds again, and yet makes the IEEE result of them in the normal range. -/
theorem C113_quotient (hf : half.decode f.bits.toNat = .num s m) (hg : half.decode g.bits.toNat = .num s' m') (h0' : m' ≠ 0) {r : F32}
    (hr : NearestSingle (signed s m / signed s' m') r) (h1 : (2 : ℚ) ^ (-14 : ℤ) ≤ m / m') (h2 : m / m' < half.overflowAt) :
    ∃ h acc, newFromFloat32 r = .ok (h, acc) ∧ half.RoundsTo (s != s') (m / m') h.bits.toNat := by
  obtain ⟨-, a1, a2⟩ := half_value hf
  obtain ⟨-, b1, b2⟩ := half_value hg
  have hm' : 0 < m' := lt_of_le_of_ne b1 (Ne.symm h0')
  have hv0 : 0 < m / m' := lt_of_lt_of_le (by positivity) h1
  have hm : 0 < m := by
    rcases a1.lt_or_eq with h | h
    · exact h
    · rw [← h, zero_div] at hv0; exact absurd hv0 (lt_irrefl _)
  have hsg : signed s m / signed s' m' = signed (s != s') (m / m') := by unfold signed; cases s <;> cases s' <;> simp [neg_div, div_neg]
  have hround : single.RoundsTo (s != s') (m / m') r.toNat := by
    unfold NearestSingle at hr
    rw [hsg, BigFloat.signed_abs hv0.le] at hr
    cases hss : (s != s')
    · rw [hss] at hr
      simpa [signed, hv0.ne', not_lt.2 hv0.le] using hr
    · rw [hss] at hr
      simpa [signed, hv0.ne', hv0] using hr
  obtain ⟨K, i, k1, -, k3⟩ := value_form hf
  obtain ⟨K', i', k1', -, k3'⟩ := value_form hg
  have hform : ∀ {s : Bool} {m : ℚ} {K i : ℤ}, 0 < m → signed s m = K * (2 : ℚ) ^ i → m = ((|K| : ℤ) : ℚ) * (2 : ℚ) ^ i ∧ 0 < |K| := by
    intro s m K i hm h
    have hp : (0 : ℚ) < (2 : ℚ) ^ i := zpow_pos (by norm_num) i
    have h2 := congrArg abs h
    rw [BigFloat.signed_abs hm.le, abs_mul, abs_of_pos hp] at h2
    have h3 : m = ((|K| : ℤ) : ℚ) * (2 : ℚ) ^ i := by rw [h2]; push_cast; rfl
    refine ⟨h3, abs_pos.2 ?_⟩
    rintro rfl
    simp at h3
    linarith
  obtain ⟨c1, -⟩ := hform hm k3
  obtain ⟨c1', c2'⟩ := hform hm' k3'
  exact via_single hround h1 h2 fun q herr =>
    half_quotient_not_misled (i := i) (j := i') c2' k1 k1' (by rw [← c1, ← c1']; exact div_mul_cancel₀ m hm'.ne') herr

/-- Two different numbers are at least a unit of the finer of their grids apart. -/
theorem apart {A B i e : ℤ} {x y : ℚ} (hx : x = A * (2 : ℚ) ^ i) (hy : y = B * (2 : ℚ) ^ e) (hne : x ≠ y) : (2 : ℚ) ^ i ≤ |x - y| ∨ (2 : ℚ) ^ e ≤ |x - y| := by
  have hpw : ∀ e : ℤ, (0 : ℚ) < (2 : ℚ) ^ e := fun e => zpow_pos (by norm_num) e
  rcases le_total i e with h | h
  · obtain ⟨d, hd⟩ : ∃ d : ℕ, e = i + d := ⟨(e - i).toNat, by omega⟩
    have h1 : x - y = ((A - B * 2 ^ d : ℤ) : ℚ) * (2 : ℚ) ^ i := by
      rw [hx, hy, hd, zpow_add₀ (by norm_num), zpow_natCast]; push_cast; ring
    have h2 := one_le_abs (hpw i) (h1 ▸ sub_ne_zero.2 hne)
    rw [← h1] at h2
    exact .inl h2
  · obtain ⟨d, hd⟩ : ∃ d : ℕ, i = e + d := ⟨(i - e).toNat, by omega⟩
    have h1 : x - y = ((A * 2 ^ d - B : ℤ) : ℚ) * (2 : ℚ) ^ e := by
      rw [hx, hy, hd, zpow_add₀ (by norm_num), zpow_natCast]; push_cast; ring
    have h2 := one_le_abs (hpw e) (h1 ▸ sub_ne_zero.2 hne)
    rw [← h1] at h2
    exact .inr h2

/-- A sum of two numbers of 11 bits is not near to a number of 12 bits that is not the greater of the two. -/
theorem sum_far {A B C i j e : ℤ} {x y w : ℚ} (hij : j ≤ i) (hx : x = A * (2 : ℚ) ^ i) (hy : y = B * (2 : ℚ) ^ j) (hw : w = C * (2 : ℚ) ^ e)
    (hA : |A| < 2 ^ 11) (hB : |B| < 2 ^ 11) (hC : |C| < 2 ^ 12) (hxw : x ≠ w) (hne : x + y ≠ w) : |x + y| / 2 ^ 24 < |x + y - w| := by
  have hpw : ∀ e : ℤ, (0 : ℚ) < (2 : ℚ) ^ e := fun e => zpow_pos (by norm_num) e
  have bound : ∀ {A i : ℤ} {x : ℚ} {p : ℕ}, x = A * (2 : ℚ) ^ i → |A| < 2 ^ p → |x| < 2 ^ p * (2 : ℚ) ^ i := by
    intro A i x p hx hA
    rw [hx, abs_mul, abs_of_pos (hpw i)]
    exact mul_lt_mul_of_pos_right (by exact_mod_cast hA) (hpw i)
  have bx := bound hx hA
  have bY := bound hy hB
  have bw := bound hw hC
  obtain ⟨S, hS⟩ : ∃ S : ℤ, x + y = S * (2 : ℚ) ^ j := by
    obtain ⟨d, hd⟩ : ∃ d : ℕ, i = j + d := ⟨(i - j).toNat, by omega⟩
    exact ⟨A * 2 ^ d + B, by rw [hx, hy, hd, zpow_add₀ (by norm_num), zpow_natCast]; push_cast; ring⟩
  have t1 : |w| ≤ |x + y - w| + |x + y| := by
    rw [abs_sub_comm]; have := abs_add_le (w - (x + y)) (x + y); rwa [sub_add_cancel] at this
  have t1' : |x + y| ≤ |x + y - w| + |w| := by
    have := abs_add_le (x + y - w) w; rwa [sub_add_cancel] at this
  have t2 : |x - w| ≤ |x + y - w| + |y| := by
    have := abs_sub (x + y - w) y; rwa [show x + y - w - y = x - w by ring] at this
  have t3 : |x + y| ≤ |x| + |y| := abs_add_le x y
  by_contra hle
  push Not at hle
  have hd0 : 0 < |x + y - w| := abs_pos.2 (sub_ne_zero.2 hne)
  norm_num at bx bY bw hle
  rcases apart hS hw hne with h | h
  · rcases apart hx hw hxw with h' | h'
    · linarith
    · linarith
  · linarith

/-- What is half way between two halves is not a half. -/
theorem half_ne_halfway {c n : ℕ} {b : ℚ} (hd : half.decode c = .num s m) (hb : Halfway half n b) : |signed s m| ≠ b := by
  rw [halfway_iff half (by decide)] at hb
  obtain ⟨k, -, rfl, -, -⟩ := half.code_of_decode hd
  rw [BigFloat.signed_abs (decode_nonneg hd)]
  intro h
  have h1 : half.magc n < half.magc (n + 1) := half.magc_strictMono (Nat.lt_succ_self n)
  have h2 : half.magc n < half.magc k := by rw [h]; linarith [hb.2]
  have h3 : half.magc k < half.magc (n + 1) := by rw [h]; linarith [hb.2]
  have := half.magc_strictMono.lt_iff_lt.1 h2
  have := half.magc_strictMono.lt_iff_lt.1 h3
  omega

/-- C113, sums and differences: float32 rounds some of them, and `NewFromFloat32` rounds again, and yet makes the IEEE result of them. -/
theorem C113_sum (hf : half.decode f.bits.toNat = .num s m) (hg : half.decode g.bits.toNat = .num s' m') {r : F32} {v : ℚ}
    (hv : v = signed s m + signed s' m' ∨ v = signed s m - signed s' m') (hr : NearestSingle v r) (h2 : |v| < half.overflowAt) :
    ∃ σ h acc, signed σ |v| = v ∧ newFromFloat32 r = .ok (h, acc) ∧ half.RoundsTo σ |v| h.bits.toNat := by
  obtain ⟨⟨j, hj⟩, a1, a2⟩ := half_value hf
  obtain ⟨⟨j', hj'⟩, b1, b2⟩ := half_value hg
  have hmul : ∃ j : ℤ, v = j * (2 : ℚ) ^ (-24 : ℤ) := by
    rcases hv with h | h
    · exact ⟨j + j', by rw [h, hj, hj']; push_cast; ring⟩
    · exact ⟨j - j', by rw [h, hj, hj']; push_cast; ring⟩
  rcases lt_or_ge |v| ((2 : ℚ) ^ (-14 : ℤ)) with hlow | hlow
  · obtain ⟨J, hJ⟩ := hmul
    have hK : |J| < 2 ^ 24 := by
      have hp : (0 : ℚ) < (2 : ℚ) ^ (-24 : ℤ) := by positivity
      rw [hJ, abs_mul, abs_of_pos hp] at hlow
      have h1 : |(J : ℚ)| < 2 ^ 10 := by
        norm_num at hlow ⊢
        linarith
      have h2 : |J| < 2 ^ 10 := by exact_mod_cast h1
      exact h2.trans (by norm_num)
    obtain ⟨σ, e1, e2⟩ := nearest_self_single hK (by norm_num) hJ (hlow.trans (zpow_lt_zpow_right₀ (by norm_num) (by norm_num))) hr
    obtain ⟨h, acc, c1, c2⟩ := C06_partial32 r (.inl ⟨σ, _, e1, .inr (small_half ⟨J, hJ⟩ hlow σ)⟩)
    rw [e1] at c2
    exact ⟨σ, h, acc, e2, c1, c2⟩
  · have hv0 : v ≠ 0 := by
      rintro rfl
      rw [abs_zero] at hlow
      exact absurd hlow (not_le.2 (by positivity))
    have hround := hr
    unfold NearestSingle at hround
    rw [if_neg hv0] at hround
    obtain ⟨h, acc, c1, c2⟩ := via_single hround hlow h2 (by
      rintro q herr ⟨n, hn, hif⟩
      have hne : |v| ≠ q := by split at hif <;> intro h <;> linarith
      have hn' := hn
      rw [halfway_iff half (by decide)] at hn'
      obtain ⟨C, e, hC, hCe⟩ := halfway_fits half (p := 12) hn'.1 (by decide)
      have hq : q = C * (2 : ℚ) ^ e := by linarith [hn'.2]
      have hq0 : 0 ≤ q := by
        have := (abs_le.1 herr).2
        have hp := abs_nonneg v
        norm_num at this
        linarith
      obtain ⟨w, hw, C', hC', hwC, hdist⟩ : ∃ w, |w| = q ∧ ∃ C' : ℤ, |C'| < 2 ^ 12 ∧ w = C' * (2 : ℚ) ^ e ∧ |v - w| = |(|v| - q)| := by
        rcases le_total 0 v with h | h
        · exact ⟨q, abs_of_nonneg hq0, C, hC, hq, by rw [abs_of_nonneg h]⟩
        · refine ⟨-q, by rw [abs_neg, abs_of_nonneg hq0], -C, by rwa [abs_neg], by rw [hq]; push_cast; ring, ?_⟩
          rw [abs_of_nonpos h, ← abs_neg]; congr 1; ring
      obtain ⟨K, i, k1, -, k3⟩ := value_form hf
      obtain ⟨K', i', k1', -, k3'⟩ := value_form hg
      obtain ⟨y, K'', k1'', hy, habs, rfl⟩ : ∃ (y : ℚ) (K'' : ℤ), |K''| < 2 ^ 11 ∧ y = K'' * (2 : ℚ) ^ i' ∧ |y| = |signed s' m'| ∧ v = signed s m + y := by
        rcases hv with h | h
        · exact ⟨_, K', k1', k3', rfl, h⟩
        · exact ⟨-signed s' m', -K', by rw [abs_neg]; exact k1', by rw [k3']; push_cast; ring, abs_neg _, by rw [h]; ring⟩
      have x1 : signed s m ≠ w := fun h => half_ne_halfway hf hn (by rw [h, hw])
      have x2 : y ≠ w := fun h => half_ne_halfway hg hn (by rw [← habs, h, hw])
      have x3 : signed s m + y ≠ w := by
        intro h
        rw [h] at hne
        exact hne hw
      rw [← hdist] at herr
      rcases le_total i' i with hii | hii
      · exact absurd herr (not_le.2 (sum_far hii k3 hy hwC k1 k1'' hC' x1 x3))
      · have h := sum_far hii hy k3 hwC k1'' k1 hC' x2 (by rwa [add_comm])
        rw [add_comm y] at h
        exact absurd herr (not_le.2 h))
    exact ⟨_, h, acc, signed_decide v, c1, c2⟩

/-- What an interval of singles is, in terms of the significand. -/
theorem nearest_single_by_interval {v : ℚ} {k N : ℕ} {r : F32} (hv : 0 < v) (hN : 2 ^ 23 < N) (hN2 : N < 2 ^ 24) (hk : k + 3 ≤ 2 ^ 8) (s : Bool)
    (hr : r.toNat = single.signPart s + (k * 2 ^ 23 + N)) (h1 : (2 * (N : ℚ) - 1) * (2 : ℚ) ^ (-149 + k : ℤ) < 2 * v)
    (h2 : 2 * v < (2 * (N : ℚ) + 1) * (2 : ℚ) ^ (-149 + k : ℤ)) : NearestSingle (signed s v) r := by
  have hn : k * 2 ^ 23 + N < single.infCode := by
    show k * 2 ^ 23 + N < (2 ^ 8 - 1) * 2 ^ 23
    omega
  have e0 : single.magc (k * 2 ^ 23 + N) = N * (2 : ℚ) ^ (-149 + k : ℤ) := single.magc_eq (k := k) (N := N) hN2.le (.inr hN.le)
  have e1 : single.magc (k * 2 ^ 23 + N + 1) = (N + 1) * (2 : ℚ) ^ (-149 + k : ℤ) := magc_succ single (k := k) (N := N) hN2 (.inr hN.le)
  have e2 : single.magc (k * 2 ^ 23 + N - 1) = (N - 1) * (2 : ℚ) ^ (-149 + k : ℤ) := magc_pred single (k := k) (N := N) hN2 (by omega) (.inr hN)
  have h : single.RoundsTo s v r.toNat := by
    rw [hr, roundsTo_iff single (by decide) (by decide) s hn hv.le]
    unfold InInterval
    rw [e0, e1, e2]
    generalize (2 : ℚ) ^ (-149 + k : ℤ) = P at *
    refine ⟨fun _ => ⟨?_, fun _ => ?_⟩, ?_, fun _ => ?_⟩ <;> nlinarith
  unfold NearestSingle
  rw [BigFloat.signed_abs hv.le]
  cases s
  · simpa [signed, hv.ne', not_lt.2 hv.le] using h
  · simpa [signed, hv.ne', hv] using h

theorem max_half : half.decode (⟨0x7BFE⟩ : Float).bits.toNat = .num false 65472 := by
  show half.decode 0x7BFE = _
  norm_num [half, Format.decode, Format.bias]

theorem min_half : half.decode (⟨0x8001⟩ : Float).bits.toNat = .num true ((2 : ℚ) ^ (-24 : ℤ)) := by
  show half.decode 0x8001 = _
  norm_num [half, Format.decode, Format.bias]

-- 65472 + (-2^-24) is not a float32, and its nearest float32 is 65472; -11/8 times itself is 121/64; 1 divided by -11/8 is rounded
example := C113_sum (f := ⟨0x7BFE⟩) (g := ⟨0x8001⟩) (r := 0x477FC000) max_half min_half (.inl rfl)
  (by
    rw [show signed false 65472 + signed true ((2 : ℚ) ^ (-24 : ℤ)) = signed false (65472 - (2 : ℚ) ^ (-24 : ℤ)) by norm_num [signed]]
    exact nearest_single_by_interval (k := 141) (N := 0xFFC000) (by norm_num) (by norm_num) (by norm_num) (by norm_num) false (by decide) (by norm_num) (by norm_num))
  (by norm_num [signed, Format.overflowAt, half, Format.bias])
example := C113_product (f := ⟨0xBD80⟩) (g := ⟨0xBD80⟩) (r := 0x3FF20000) Sample.x_half Sample.x_half
  (by
    rw [show signed true (11 / 8) * signed true (11 / 8) = signed false (121 / 64) by norm_num [signed]]
    exact nearest_single_by_interval (k := 126) (N := 0xF20000) (by norm_num) (by norm_num) (by norm_num) (by norm_num) false (by decide) (by norm_num) (by norm_num))
example := C113_quotient (f := ⟨0x3C00⟩) (g := ⟨0xBD80⟩) (r := 0xBF3A2E8C) one_half Sample.x_half (by norm_num)
  (by
    rw [show signed false 1 / signed true (11 / 8) = signed true (8 / 11) by norm_num [signed]]
    exact nearest_single_by_interval (k := 125) (N := 0xBA2E8C) (by norm_num) (by norm_num) (by norm_num) (by norm_num) true (by decide) (by norm_num) (by norm_num))
  (by norm_num) (by norm_num [Format.overflowAt, half, Format.bias])

/-- C113: below the normal range products need not be nearest, although float32 has them exactly: 3 units of 2^-24 times 1/2 are 3/2 units, and come back as
one; the even neighbour of the two is 2. -/
theorem C113_below : half.decode 3 = .num false (3 * (2 : ℚ) ^ (-24 : ℤ)) ∧ half.decode 0x3800 = .num false (1 / 2) ∧
    single.decode (0x33C00000 : F32).toNat = .num false (3 / 2 * (2 : ℚ) ^ (-24 : ℤ)) ∧ newFromFloat32 0x33C00000 = .ok (⟨1⟩, .exact) ∧
    ¬ half.RoundsTo false (3 / 2 * (2 : ℚ) ^ (-24 : ℤ)) 1 := by
  refine ⟨C112_below.1, C112_below.2.1, ?_, by decide +kernel, C112_below.2.2.2.2⟩
  show single.decode 0x33C00000 = _
  norm_num [single, Format.decode, Format.bias]

end GoFloat.Binary16
