import Verif.Props.ViaExtended
/-
C119: float32 arithmetic by way of binary128.
-/
namespace GoFloat.Binary128
open Spec Float128ppc Strconv

variable {s s' : Bool} {m m' : ℚ} {z : BigFloat}

/-- What is half way between two singles is a quad. -/
theorem halfway_single {n : ℕ} (hn : n < single.infCode) : ∃ k, k < quad.infCode ∧ 2 * quad.magc k = single.magc n + single.magc (n + 1) := by
  obtain ⟨k, N, hs⟩ := Strconv.exists_split single hn
  have h1 := hs.lt
  have hk : k + 2 < 2 ^ single.w := by
    rcases hs.k_lt with h | ⟨-, h⟩
    · exact h
    · exact absurd h (by decide)
  change k + 2 < 2 ^ 8 at hk
  change N < 2 ^ (23 + 1) at h1
  have q1 : single.qmin = -149 := by decide
  have q2 : quad.qmin = -16494 := by decide
  have q3 : quad.bias = 16383 := by decide
  obtain ⟨c, hc, e⟩ := exists_code quad (by decide) (N := 2 * N + 1) (q := single.qmin + k - 1) (by change 2 * N + 1 < 2 ^ 113; omega)
    (by rw [q1, q2]; omega) (by
      have hN : ((2 * N + 1 : ℕ) : ℚ) < (2 : ℚ) ^ (25 : ℤ) := by
        have : 2 * N + 1 < 2 ^ 25 := by omega
        exact_mod_cast this
      refine lt_of_lt_of_le (mul_lt_mul_of_pos_right hN (zpow_pos (by norm_num) _)) ?_
      rw [← zpow_add₀ (by norm_num)]
      refine zpow_le_zpow_right₀ (by norm_num) ?_
      rw [q1, q3]
      omega)
  refine ⟨c, hc, ?_⟩
  rw [hs.upper_mid, e]
  push_cast
  ring

/-- Rounding to a quad first, and to a single afterwards, is rounding to a single, if the quad is not misleading. -/
theorem via_quad_single {v : ℚ} {h : Float} {σ : Bool} (hround : quad.RoundsTo σ v h.code) (h1 : (2 : ℚ) ^ (-4000 : ℤ) ≤ v) (h2 : v < (2 : ℚ) ^ (4000 : ℤ))
    (hnm : ∀ q, |v - q| ≤ v / 2 ^ 64 → ¬ Misled single v q) : ∃ k acc, h.float32 = .ok (k, acc) ∧ single.RoundsTo σ v k.toNat := by
  have hv0 : 0 < v := lt_of_lt_of_le (zpow_pos (by norm_num) _) h1
  have hov : v < quad.overflowAt := by
    refine h2.trans_le (le_trans (zpow_le_zpow_right₀ (by norm_num) (by decide : (4000 : ℤ) ≤ quad.bias)) ?_)
    unfold Format.overflowAt
    refine le_mul_of_one_le_right (zpow_nonneg (by norm_num) _) ?_
    rw [show quad.t = 112 by rfl]
    norm_num
  obtain ⟨q, hq, herr⟩ := nearest_err quad (by decide) hv0.le hov hround
  have hq0 : 0 ≤ q := decode_nonneg hq
  have hsmall : (2 : ℚ) ^ (quad.qmin - 1) ≤ v / 2 ^ 113 := by
    rw [show quad.qmin - 1 = -16495 by decide, le_div_iff₀ (by positivity), show (2 : ℚ) ^ 113 = (2 : ℚ) ^ (113 : ℤ) by rw [← zpow_natCast]; rfl, ← zpow_add₀ (by norm_num)]
    exact (zpow_le_zpow_right₀ (by norm_num) (by norm_num)).trans h1
  have herr' : |v - q| ≤ v / 2 ^ 113 := by
    rw [abs_sub_comm]
    refine herr.trans (max_le ?_ hsmall)
    rw [show -((quad.t : ℤ) + 1) = -113 by decide, div_eq_mul_inv v]
    exact mul_le_mul_of_nonneg_left (by norm_num) hv0.le
  clear herr hsmall h1 h2
  have near : ∀ {k}, k < quad.infCode → |v - q| ≤ |v - quad.magc k| := by
    intro k hk
    have h := hround
    unfold Format.RoundsTo at h
    rw [if_neg (not_le.2 hov)] at h
    obtain ⟨q', hq', hn, -⟩ := h
    rw [hq] at hq'
    obtain rfl := (Datum.num.inj hq').2
    have h := hn _ _ _ (quad.decode_code σ hk)
    rwa [GoFloat.signed_sub, GoFloat.signed_sub] at h
  have near2 : ∀ {n}, n < single.infCode → |v - q| ≤ |v - (single.magc n + single.magc (n + 1)) / 2| := by
    intro n hn
    obtain ⟨k, hk, e⟩ := halfway_single hn
    rw [show (single.magc n + single.magc (n + 1)) / 2 = quad.magc k by linarith]
    exact near hk
  obtain ⟨k, acc, e1, e2⟩ := C17_binary128_float32 h
  rw [hq] at e2
  refine ⟨k, acc, e1, (twice_of single (by decide) (by decide) hv0.le hq0 ?_ ?_ e2.1).2 (hnm q (herr'.trans (div_le_div_of_nonneg_left hv0.le (by norm_num) (by norm_num))))⟩
  · intro n hn hle
    by_contra hlt
    push Not at hlt
    have h := near2 hn
    rw [abs_of_pos (show 0 < v - q by linarith), abs_of_nonneg (show 0 ≤ v - (single.magc n + single.magc (n + 1)) / 2 by linarith)] at h
    linarith
  · intro n hn hle
    by_contra hlt
    push Not at hlt
    have h := near2 hn
    rw [abs_of_neg (show v - q < 0 by linarith), abs_of_nonpos (show v - (single.magc n + single.magc (n + 1)) / 2 ≤ 0 by linarith)] at h
    linarith

/-- A sum of two singles that is rounded to a quad and then to a single. -/
theorem back_single {a b : F32} (ha : single.decode a.toNat = .num s m) (hb : single.decode b.toNat = .num s' m') {r : BigFloat} (h : Back s m s' m' r) :
    ∃ h acc k acc', newFromBig r = .ok (h, acc) ∧ h.float32 = .ok (k, acc') ∧ IsSum single s m s' m' k.toNat := by
  obtain ⟨h, acc, hr, hs, -⟩ := h
  have ma := decode_nonneg ha
  have mb := decode_nonneg hb
  obtain ⟨⟨j, hj⟩, ha2⟩ := decode_multiple (F := single) (by decide) ha
  obtain ⟨⟨j', hj'⟩, hb2⟩ := decode_multiple (F := single) (by decide) hb
  rw [show single.bias + 1 = 128 by decide] at ha2 hb2
  rw [show single.qmin = -149 by decide] at hj hj'
  obtain ⟨v, hv⟩ : ∃ v, v = signed s m + signed s' m' := ⟨_, rfl⟩
  have hhi : |v| < (2 : ℚ) ^ (4000 : ℤ) := by
    rw [hv]
    refine (abs_add_le _ _).trans_lt ?_
    rw [BigFloat.signed_abs ma, BigFloat.signed_abs mb]
    refine (add_lt_add ha2 hb2).trans ?_
    rw [← two_mul, show (2 : ℚ) * (2 : ℚ) ^ (128 : ℤ) = (2 : ℚ) ^ (129 : ℤ) by rw [show (129 : ℤ) = 1 + 128 by norm_num, zpow_add₀ (by norm_num), zpow_one]]
    exact zpow_lt_zpow_right₀ (by norm_num) (by norm_num)
  have hov : |v| < quad.overflowAt := by
    refine hhi.trans_le (le_trans (zpow_le_zpow_right₀ (by norm_num) (by decide : (4000 : ℤ) ≤ quad.bias)) ?_)
    unfold Format.overflowAt
    refine le_mul_of_one_le_right (zpow_nonneg (by norm_num) _) ?_
    rw [show quad.t = 112 by rfl]
    norm_num
  obtain ⟨hsum, -⟩ := hs (by rw [← hv]; exact hov)
  unfold IsSum at hsum ⊢
  rw [← hv] at hsum ⊢
  by_cases h0 : v = 0
  · rw [if_pos h0] at hsum
    simp only [if_pos h0]
    obtain ⟨k, acc', e1, e2⟩ := C17_binary128_float32 h
    rw [hsum] at e2
    refine ⟨h, acc, k, acc', hr, e1, ?_⟩
    obtain ⟨c, hc⟩ : ∃ c, single.decode c = .num (s && s') 0 := by
      have h := single.decode_code (s && s') (n := 0) (by decide)
      rw [show single.magc 0 = 0 by simp [Format.magc]] at h
      exact ⟨_, h⟩
    exact round_to_self (by decide) hc e2.1
  · rw [if_neg h0] at hsum
    simp only [if_neg h0]
    have hlow : (2 : ℚ) ^ (-4000 : ℤ) ≤ |v| := by
      have e : v = ((j + j' : ℤ) : ℚ) * (2 : ℚ) ^ (-149 : ℤ) := by rw [hv, hj, hj']; push_cast; ring
      have := one_le_abs (n := j + j') (u := (2 : ℚ) ^ (-149 : ℤ)) (zpow_pos (by norm_num) _) (e ▸ h0)
      rw [← e] at this
      exact (zpow_le_zpow_right₀ (by norm_num) (by norm_num)).trans this
    clear hov
    obtain ⟨k, acc', e1, e2⟩ := via_quad_single hsum hlow hhi (by
      clear hlow hhi hj hj' ha2 hb2 hsum
      rintro q herr ⟨n, hn, hif⟩
      have hne : |v| ≠ q := by split at hif <;> intro h <;> linarith
      have hn' := hn
      rw [halfway_iff single (by decide)] at hn'
      obtain ⟨C, e, hC, hCe⟩ := halfway_fits single (p := 25) hn'.1 (by decide)
      have hq : q = C * (2 : ℚ) ^ e := by linarith [hn'.2]
      have hq0 : 0 ≤ q := by
        have := (abs_le.1 herr).2
        have hp := abs_nonneg v
        norm_num at this
        linarith
      obtain ⟨w, hw, C', hC', hwC, hdist⟩ : ∃ w, |w| = q ∧ ∃ C' : ℤ, |C'| < 2 ^ 25 ∧ w = C' * (2 : ℚ) ^ e ∧ |v - w| = |(|v| - q)| := by
        rcases le_total 0 v with h | h
        · exact ⟨q, abs_of_nonneg hq0, C, hC, hq, by rw [abs_of_nonneg h]⟩
        · refine ⟨-q, by rw [abs_neg, abs_of_nonneg hq0], -C, by rwa [abs_neg], by rw [hq]; push_cast; ring, ?_⟩
          rw [abs_of_nonpos h, ← abs_neg]; congr 1; ring
      obtain ⟨K, i, k1, -, k3⟩ := value_form ha
      obtain ⟨K', i', k1', -, k3'⟩ := value_form hb
      have x1 : signed s m ≠ w := fun h => Float80x86.single_ne_halfway ha hn (by rw [h, hw])
      have x2 : signed s' m' ≠ w := fun h => Float80x86.single_ne_halfway hb hn (by rw [h, hw])
      have x3 : signed s m + signed s' m' ≠ w := by
        intro h
        rw [← hv] at h
        rw [h] at hne
        exact hne hw
      rw [← hdist, hv] at herr
      rcases le_total i' i with hii | hii
      · exact absurd herr (not_le.2 (Float80x86.sum_far hii k3 k3' hwC k1 k1' hC' x1 x3))
      · have h := Float80x86.sum_far hii k3' k3 hwC k1' k1 hC' x2 (by rwa [add_comm])
        rw [add_comm (signed s' m')] at h
        exact absurd herr (not_le.2 h))
    exact ⟨h, acc, k, acc', hr, e1, e2⟩

/-- C119, sums and differences: two finite float32 values converted to binary128, added or subtracted by way of `Big`, math/big and `NewFromBig`, and converted
back with `Float32`: the IEEE sum of the float32 values, with the sign of a zero, subnormals and overflow to infinity included. -/
theorem C119_sum {a b : F32} (ha : single.decode a.toNat = .num s m) (hb : single.decode b.toNat = .num s' m')
    (hz : z.prec = 0 ∨ z.prec = 113) (hmode : z.mode = .toNearestEven) :
    ∃ f g x y, newFromFloat32 a = .ok (f, .exact) ∧ newFromFloat32 b = .ok (g, .exact) ∧ f.big = .ok (x, false) ∧ g.big = .ok (y, false) ∧
      (∃ r h acc k acc', z.add x y = .ok r ∧ newFromBig r = .ok (h, acc) ∧ h.float32 = .ok (k, acc') ∧ IsSum single s m s' m' k.toNat) ∧
      (∃ r h acc k acc', z.sub x y = .ok r ∧ newFromBig r = .ok (h, acc) ∧ h.float32 = .ok (k, acc') ∧ IsSum single s m (!s') m' k.toNat) := by
  obtain ⟨f, f1, f2, -⟩ := C16_binary128_float32 a (fun s h => by rw [ha] at h; cases h)
  obtain ⟨g, g1, g2, -⟩ := C16_binary128_float32 b (fun s h => by rw [hb] at h; cases h)
  rw [ha] at f2
  rw [hb] at g2
  obtain ⟨x, y, hx, hy, ⟨r, hr, hB⟩, ⟨r', hr', hB'⟩⟩ := C104_binary128 (z := z) f2 g2 hz hmode
  obtain ⟨h, acc, k, acc', e1, e2, e3⟩ := back_single ha hb hB
  obtain ⟨c, hc⟩ : ∃ b' : F32, single.decode b'.toNat = .num (!s') m' := by
    obtain ⟨n, hn, rfl, -, -⟩ := single.code_of_decode hb
    refine ⟨BitVec.ofNat 32 (single.signPart (!s') + n), ?_⟩
    have hlt : single.signPart (!s') + n < 2 ^ 32 := by
      have : single.signPart (!s') ≤ 2 ^ 31 := by cases s' <;> decide
      have h2 : single.infCode < 2 ^ 31 := by decide
      omega
    rw [BitVec.toNat_ofNat, Nat.mod_eq_of_lt hlt, single.decode_code _ hn]
  obtain ⟨h', bcc, k', bcc', d1, d2, d3⟩ := back_single ha hc hB'
  exact ⟨f, g, x, y, f1, g1, hx, hy, ⟨r, h, acc, k, acc', hr, e1, e2, e3⟩, ⟨r', h', bcc, k', bcc', hr', d1, d2, d3⟩⟩

example := C119_sum (z := { prec := 0, mode := .toNearestEven, acc := .exact, form := .zero, neg := false, mant := 0, exp := 0 }) Sample.x_single Sample.x_single (.inl rfl) rfl

/-- C119, products: the IEEE product of two finite nonzero float32 values, subnormals and overflow included; the accuracy that `Float32` reports is true of
the exact product. -/
theorem C119_product {a b : F32} (ha : single.decode a.toNat = .num s m) (hb : single.decode b.toNat = .num s' m') (h0 : m ≠ 0) (h0' : m' ≠ 0)
    (hz : z.prec = 113) (hmode : z.mode = .toNearestEven) :
    ∃ f g x y h acc k acc', newFromFloat32 a = .ok (f, .exact) ∧ newFromFloat32 b = .ok (g, .exact) ∧ f.big = .ok (x, false) ∧ g.big = .ok (y, false) ∧
      newFromBig (z.mul x y) = .ok (h, acc) ∧ h.float32 = .ok (k, acc') ∧ single.RoundsTo (s != s') (m * m') k.toNat ∧
      AccuracyTrue acc' (single.decode k.toNat) (.num (s != s') (m * m')) := by
  obtain ⟨f, f1, f2, -⟩ := C16_binary128_float32 a (fun s h => by rw [ha] at h; cases h)
  obtain ⟨g, g1, g2, -⟩ := C16_binary128_float32 b (fun s h => by rw [hb] at h; cases h)
  rw [ha] at f2
  rw [hb] at g2
  obtain ⟨x, y, hx, hy, ⟨q, h, acc, -, -, e1, e2, -⟩, -⟩ := C108_binary128 (z := z) f2 g2 h0 h0' hz hmode
  have ma := decode_nonneg ha
  have mb := decode_nonneg hb
  obtain ⟨a1, a2⟩ := Float80x86.single_bounds ha h0
  obtain ⟨b1, b2⟩ := Float80x86.single_bounds hb h0'
  have hlow : (2 : ℚ) ^ (-298 : ℤ) ≤ m * m' := by
    rw [show (-298 : ℤ) = -149 + -149 by norm_num, zpow_add₀ (by norm_num)]
    exact mul_le_mul a1 b1 (zpow_nonneg (by norm_num) _) ma
  have hhi : m * m' < (2 : ℚ) ^ (256 : ℤ) := by
    rw [show (256 : ℤ) = 128 + 128 by norm_num, zpow_add₀ (by norm_num)]
    exact mul_lt_mul'' a2 b2 ma mb
  have hov : m * m' < quad.overflowAt := by
    refine hhi.trans_le (le_trans (zpow_le_zpow_right₀ (by norm_num) (by decide : (256 : ℤ) ≤ quad.bias)) ?_)
    unfold Format.overflowAt
    refine le_mul_of_one_le_right (zpow_nonneg (by norm_num) _) ?_
    rw [show quad.t = 112 by rfl]
    norm_num
  obtain ⟨e2, -⟩ := e2 ((zpow_le_zpow_right₀ (by norm_num) (by norm_num)).trans hlow) hov
  obtain ⟨K, i, k1, k2, k3⟩ := value_form ha
  obtain ⟨K', i', k1', k2', k3'⟩ := value_form hb
  rw [show single.qmin = -149 by decide] at k2 k2'
  have hp : (0 : ℚ) < (2 : ℚ) ^ (i + i') := zpow_pos (by norm_num) _
  have habs : |m * m'| = |((K * K' : ℤ) : ℚ)| * (2 : ℚ) ^ (i + i') := by
    rw [← abs_of_pos hp, ← abs_mul, show (((K * K' : ℤ) : ℚ) * (2 : ℚ) ^ (i + i')) = signed s m * signed s' m' by
      rw [k3, k3', zpow_add₀ (by norm_num)]; push_cast; ring, abs_mul, abs_mul, BigFloat.signed_abs ma, BigFloat.signed_abs mb, abs_of_nonneg ma, abs_of_nonneg mb]
  obtain ⟨c, hc⟩ := form_value (F := quad) (by decide) (K := K * K') (q := i + i') (v := m * m') (by
      rw [abs_mul]
      calc |K| * |K'| < 2 ^ 24 * 2 ^ 24 := mul_lt_mul'' k1 k1' (abs_nonneg _) (abs_nonneg _)
        _ < 2 ^ (quad.t + 1) := by decide) (by rw [show quad.qmin = -16494 by decide]; omega) habs (by
      rw [abs_of_nonneg (mul_nonneg ma mb)]
      exact hhi.trans (zpow_lt_zpow_right₀ (by norm_num) (by decide))) (s != s')
  rw [abs_of_nonneg (mul_nonneg ma mb)] at hc
  have hd := round_to_self (by decide) hc e2
  obtain ⟨k, acc', d1, d2⟩ := C17_binary128_float32 h
  rw [hd] at d2
  exact ⟨f, g, x, y, h, acc, k, acc', f1, g1, hx, hy, e1, d1, d2.1, d2.2⟩

/-- C119, quotients: the IEEE quotient of two finite nonzero float32 values, subnormals and overflow included. -/
theorem C119_quotient {a b : F32} (ha : single.decode a.toNat = .num s m) (hb : single.decode b.toNat = .num s' m') (h0 : m ≠ 0) (h0' : m' ≠ 0)
    (hz : z.prec = 113) (hmode : z.mode = .toNearestEven) :
    ∃ f g x y h acc k acc', newFromFloat32 a = .ok (f, .exact) ∧ newFromFloat32 b = .ok (g, .exact) ∧ f.big = .ok (x, false) ∧ g.big = .ok (y, false) ∧
      newFromBig (z.quo x y) = .ok (h, acc) ∧ h.float32 = .ok (k, acc') ∧ single.RoundsTo (s != s') (m / m') k.toNat := by
  obtain ⟨f, f1, f2, -⟩ := C16_binary128_float32 a (fun s h => by rw [ha] at h; cases h)
  obtain ⟨g, g1, g2, -⟩ := C16_binary128_float32 b (fun s h => by rw [hb] at h; cases h)
  rw [ha] at f2
  rw [hb] at g2
  obtain ⟨x, y, hx, hy, -, ⟨q, h, acc, -, -, e1, e2, -⟩⟩ := C108_binary128 (z := z) f2 g2 h0 h0' hz hmode
  have ma := decode_nonneg ha
  have mb := decode_nonneg hb
  obtain ⟨a1, a2⟩ := Float80x86.single_bounds ha h0
  obtain ⟨b1, b2⟩ := Float80x86.single_bounds hb h0'
  have hm : 0 < m := lt_of_le_of_ne ma (Ne.symm h0)
  have hm' : 0 < m' := lt_of_le_of_ne mb (Ne.symm h0')
  have hlow : (2 : ℚ) ^ (-277 : ℤ) ≤ m / m' := by
    rw [le_div_iff₀ hm']
    refine le_trans ?_ a1
    rw [show (-149 : ℤ) = -277 + 128 by norm_num, zpow_add₀ (by norm_num)]
    exact mul_le_mul_of_nonneg_left b2.le (zpow_nonneg (by norm_num) _)
  have hhi : m / m' < (2 : ℚ) ^ (277 : ℤ) := by
    rw [div_lt_iff₀ hm']
    refine a2.trans_le ?_
    rw [show (128 : ℤ) = 277 + -149 by norm_num, zpow_add₀ (by norm_num)]
    exact mul_le_mul_of_nonneg_left b1 (zpow_nonneg (by norm_num) _)
  have hov : m / m' < quad.overflowAt := by
    refine hhi.trans_le (le_trans (zpow_le_zpow_right₀ (by norm_num) (by decide : (277 : ℤ) ≤ quad.bias)) ?_)
    unfold Format.overflowAt
    refine le_mul_of_one_le_right (zpow_nonneg (by norm_num) _) ?_
    rw [show quad.t = 112 by rfl]
    norm_num
  obtain ⟨e2, -⟩ := e2 ((zpow_le_zpow_right₀ (by norm_num) (by norm_num)).trans hlow) hov
  clear a1 a2 b1 b2 hov
  obtain ⟨K, i, k1, -, k3⟩ := value_form ha
  obtain ⟨K', i', k1', -, k3'⟩ := value_form hb
  have hform : ∀ {s : Bool} {m : ℚ} {K i : ℤ}, 0 < m → signed s m = K * (2 : ℚ) ^ i → m = ((|K| : ℤ) : ℚ) * (2 : ℚ) ^ i ∧ 0 < |K| := by
    clear hlow hhi
    intro s m K i hm h
    have hp : (0 : ℚ) < (2 : ℚ) ^ i := zpow_pos (by norm_num) i
    have h2 := congrArg abs h
    rw [BigFloat.signed_abs hm.le, abs_mul, abs_of_pos hp] at h2
    have h3 : m = ((|K| : ℤ) : ℚ) * (2 : ℚ) ^ i := by rw [h2]; push_cast; rfl
    refine ⟨h3, abs_pos.2 ?_⟩
    rintro rfl
    simp at h3
    linarith
  obtain ⟨c1, -⟩ := hform hm k3
  obtain ⟨c1', c2'⟩ := hform hm' k3'
  obtain ⟨k, acc', d1, d2⟩ := via_quad_single e2 ((zpow_le_zpow_right₀ (by norm_num) (by norm_num)).trans hlow) (hhi.trans (zpow_lt_zpow_right₀ (by norm_num) (by norm_num)))
    fun q herr => Float80x86.quotient_far (i := i) (j := i') c2' k1 k1' (by rw [← c1, ← c1']; exact div_mul_cancel₀ m hm'.ne') herr
  exact ⟨f, g, x, y, h, acc, k, acc', f1, g1, hx, hy, e1, d1, d2⟩

example := C119_product (z := { prec := 113, mode := .toNearestEven, acc := .exact, form := .zero, neg := false, mant := 0, exp := 0 }) Sample.x_single Sample.x_single
  (by norm_num) (by norm_num) rfl rfl
example := C119_quotient (z := { prec := 113, mode := .toNearestEven, acc := .exact, form := .zero, neg := false, mant := 0, exp := 0 }) Sample.x_single Sample.x_single
  (by norm_num) (by norm_num) rfl rfl

end GoFloat.Binary128
