import Verif.Props.Fused
import Mathlib.Analysis.Real.Sqrt
/-
C115: square roots of halves in float64.
-/
namespace GoFloat.Binary16
open Spec Float128ppc

variable {f : Float} {m : ℚ}

/-- `c` encodes a number nearest to the square root of `x`: no finite number of the format is nearer. For double this is what `math.Sqrt` returns for a
positive `x`. -/
def NearestRoot (F : Format) (x : ℚ) (c : ℕ) : Prop :=
  ∃ r, F.decode c = .num false r ∧ ∀ c' s r', F.decode c' = .num s r' → |√(x : ℝ) - r| ≤ |√(x : ℝ) - (signed s r' : ℚ)|

/-- The same, and every other number of the format is farther: there is no tie. -/
def NearestRootOnly (F : Format) (x : ℚ) (c : ℕ) : Prop :=
  ∃ r, F.decode c = .num false r ∧ ∀ c' s r', F.decode c' = .num s r' → signed s r' ≠ r → |√(x : ℝ) - r| < |√(x : ℝ) - (signed s r' : ℚ)|

/-- A square of a midpoint between halves has too many bits for a half. -/
theorem midpoint_square {N L : ℕ} {i e : ℤ} (hN : N < 2 ^ 11) (hL : 2 ^ 10 ≤ L) (h : (N : ℚ) * (2 : ℚ) ^ i = ((2 * L + 1 : ℕ) : ℚ) ^ 2 * (2 : ℚ) ^ (2 * e)) : False := by
  rcases le_or_gt i (2 * e) with hie | hie
  · obtain ⟨d, hd⟩ : ∃ d : ℕ, 2 * e = i + d := ⟨(2 * e - i).toNat, by omega⟩
    rw [hd, zpow_add₀ (by norm_num), zpow_natCast, mul_comm ((2 : ℚ) ^ i), ← mul_assoc] at h
    have h1 := mul_right_cancel₀ (zpow_ne_zero i (by norm_num)) h
    have h2 : N = (2 * L + 1) ^ 2 * 2 ^ d := by exact_mod_cast h1
    have h3 : 1 ≤ 2 ^ d := Nat.one_le_two_pow
    have h4 : (2 * L + 1) ^ 2 * 1 ≤ (2 * L + 1) ^ 2 * 2 ^ d := Nat.mul_le_mul_left _ h3
    nlinarith
  · obtain ⟨d, hd⟩ : ∃ d : ℕ, i = 2 * e + (d + 1 : ℕ) := ⟨(i - 2 * e - 1).toNat, by omega⟩
    rw [hd, zpow_add₀ (by norm_num), zpow_natCast, mul_comm ((2 : ℚ) ^ (2 * e)), ← mul_assoc] at h
    have h1 := mul_right_cancel₀ (zpow_ne_zero (2 * e) (by norm_num)) h
    have h2 : N * 2 ^ (d + 1) = (2 * L + 1) ^ 2 := by exact_mod_cast h1
    have h3 : N * 2 ^ (d + 1) = 2 * (N * 2 ^ d) := by rw [pow_succ]; ring
    have h4 : (2 * L + 1) ^ 2 = 2 * (2 * L * L + 2 * L) + 1 := by ring
    omega

/-- The square root of a half, rounded to a double, is not half way between two halves. -/
theorem root_not_halfway {c : ℕ} {q : ℚ} (hf : half.decode f.bits.toNat = .num false m) (hm : 0 < m) (hlow : (2 : ℚ) ^ (-14 : ℤ) ≤ q)
    (hn : ∀ c' s r', double.decode c' = .num s r' → |√(m : ℝ) - q| ≤ |√(m : ℝ) - (signed s r' : ℚ)|) : ¬ Halfway half c q := by
  intro hq
  rw [halfway_iff half (by decide)] at hq
  obtain ⟨k, L, hs⟩ := Strconv.exists_split half hq.1
  have h1 := hs.lt
  change L < 2 ^ (10 + 1) at h1
  have hk : k + 2 < 2 ^ half.w := by
    rcases hs.k_lt with h | ⟨-, h⟩
    · exact h
    · exact absurd h (by decide)
  change k + 2 < 2 ^ 5 at hk
  have hmid := hs.upper_mid
  rw [← hq.2, show half.qmin = -24 by decide] at hmid
  obtain ⟨e, he⟩ : ∃ e : ℤ, e = -24 + k - 1 := ⟨_, rfl⟩
  have hqe : q = ((2 * L + 1 : ℕ) : ℚ) * (2 : ℚ) ^ e := by
    rw [he]
    push_cast
    linarith
  have hpe : (0 : ℚ) < (2 : ℚ) ^ e := zpow_pos (by norm_num) e
  -- it is normal
  have hL : 2 ^ 10 ≤ L := by
    rcases hs.norm with h | h
    · subst h
      by_contra hlt
      push Not at hlt
      rw [hqe, he] at hlow
      have h2 : ((2 * L + 1 : ℕ) : ℚ) < 2 ^ 11 := by
        have : 2 * L + 1 < 2 ^ 11 := by omega
        exact_mod_cast this
      norm_num at hlow h2
      linarith
    · exact h
  -- doubles next to it
  have near : ∀ b : Bool, |√(m : ℝ) - q| ≤ |√(m : ℝ) - ((q + signed b ((2 : ℚ) ^ (e - 30)) : ℚ) : ℝ)| := by
    intro b
    have hP : (2 : ℚ) ^ e = 2 ^ 30 * (2 : ℚ) ^ (e - 30) := by
      rw [show (2 : ℚ) ^ 30 = (2 : ℚ) ^ (30 : ℤ) by norm_num, ← zpow_add₀ (by norm_num)]; congr 1; ring
    have hpp : (0 : ℚ) < (2 : ℚ) ^ (e - 30) := zpow_pos (by norm_num) _
    obtain ⟨c', hc'⟩ := form_value (F := double) (by decide) (K := (2 * L + 1) * 2 ^ 30 + if b then -1 else 1) (q := e - 30)
      (v := q + signed b ((2 : ℚ) ^ (e - 30))) (by
        have : double.t + 1 = 53 := by decide
        rw [this, abs_lt]
        cases b <;> simp <;> omega) (by rw [show double.qmin = -1074 by decide]; omega) (by
        rw [show q + signed b ((2 : ℚ) ^ (e - 30)) = (((2 * L + 1) * 2 ^ 30 + if b then -1 else 1 : ℤ) : ℚ) * (2 : ℚ) ^ (e - 30) by
          rw [hqe, hP]; cases b <;> simp [signed] <;> ring]
        rw [abs_mul, abs_of_pos hpp]) (by
        have h2 : ((2 * L + 1 : ℕ) : ℚ) < 2 ^ 12 := by
          have : 2 * L + 1 < 2 ^ 12 := by omega
          exact_mod_cast this
        have h3 : (2 : ℚ) ^ e ≤ 2 ^ 6 := by
          rw [show (2 : ℚ) ^ 6 = (2 : ℚ) ^ (6 : ℤ) by norm_num]
          exact zpow_le_zpow_right₀ (by norm_num) (by omega)
        have h4 : |q + signed b ((2 : ℚ) ^ (e - 30))| ≤ q + (2 : ℚ) ^ e := by
          refine (abs_add_le _ _).trans (add_le_add (by rw [abs_of_nonneg (by rw [hqe]; positivity)]) ?_)
          rw [BigFloat.signed_abs hpp.le]
          exact zpow_le_zpow_right₀ (by norm_num) (by omega)
        have h5 : q ≤ 2 ^ 12 * (2 : ℚ) ^ e := by rw [hqe]; exact mul_le_mul_of_nonneg_right h2.le hpe.le
        have h6 : |q + signed b ((2 : ℚ) ^ (e - 30))| < 2 ^ 20 := by norm_num at *; linarith
        refine h6.trans ?_
        rw [show (2 : ℚ) ^ 20 = (2 : ℚ) ^ (20 : ℤ) by norm_num]
        exact zpow_lt_zpow_right₀ (by norm_num) (by decide)) false
    have hpos : 0 ≤ q + signed b ((2 : ℚ) ^ (e - 30)) := by
      have h5 : (2 : ℚ) ^ e ≤ q := by
        rw [hqe]
        refine le_mul_of_one_le_left hpe.le ?_
        exact_mod_cast (by omega : 1 ≤ 2 * L + 1)
      have h6 : (2 : ℚ) ^ (e - 30) ≤ (2 : ℚ) ^ e := zpow_le_zpow_right₀ (by norm_num) (by omega)
      cases b <;> simp [signed] <;> linarith
    have h := hn _ _ _ hc'
    rw [abs_of_nonneg hpos] at h
    exact h
  obtain ⟨K, i, k1, -, k3⟩ := value_form hf
  rw [show signed false m = m from rfl] at k3
  have hK0 : 0 ≤ K := by
    by_contra h
    push Not at h
    have hp : (0 : ℚ) < (2 : ℚ) ^ i := zpow_pos (by norm_num) i
    have : (K : ℚ) < 0 := by exact_mod_cast h
    have := mul_neg_of_neg_of_pos this hp
    linarith
  obtain ⟨N, rfl⟩ := Int.eq_ofNat_of_zero_le hK0
  have hN : N < 2 ^ 11 := by
    have : |(N : ℤ)| < 2 ^ 11 := k1
    rw [abs_of_nonneg hK0] at this
    omega
  have k3' : m = ((N : ℤ) : ℚ) * (2 : ℚ) ^ i := k3
  have hsq : q ^ 2 = (((2 * L + 1) ^ 2 : ℤ) : ℚ) * (2 : ℚ) ^ (2 * e) := by
    rw [hqe, mul_pow, show ((2 : ℚ) ^ e) ^ 2 = (2 : ℚ) ^ (2 * e) by rw [two_mul, zpow_add₀ (by norm_num), sq]]
    push_cast
    ring
  have hne : m ≠ q ^ 2 := by
    intro h
    rw [hsq, k3'] at h
    exact midpoint_square (N := N) (L := L) (i := i) (e := e) hN hL (by push_cast at h ⊢; exact h)
  -- the distance
  obtain ⟨u, hu⟩ : ∃ u : ℚ, u = (2 : ℚ) ^ e := ⟨_, rfl⟩
  have hu0 : 0 < u := hu ▸ hpe
  have hw : (2 : ℚ) ^ (e - 30) = u / 2 ^ 30 := by
    rw [hu, zpow_sub₀ (by norm_num)]; norm_num
  have hdist : |√(m : ℝ) - q| ≤ ((u / 2 ^ 31 : ℚ) : ℝ) := by
    have n1 := near false
    have n2 := near true
    rw [hw] at n1 n2
    have hu0' : (0 : ℝ) < (u : ℝ) := by exact_mod_cast hu0
    simp only [signed, if_true, Bool.false_eq_true, if_false] at n1 n2
    push_cast at n1 n2 ⊢
    rcases le_total 0 (√(m : ℝ) - q) with h | h
    · rw [abs_of_nonneg h] at n1 ⊢
      rcases le_total 0 (√(m : ℝ) - (q + u / 2 ^ 30)) with h' | h'
      · rw [abs_of_nonneg h'] at n1; norm_num at n1 ⊢; linarith
      · rw [abs_of_nonpos h'] at n1; norm_num at n1 ⊢; linarith
    · rw [abs_of_nonpos h] at n2 ⊢
      rcases le_total 0 (√(m : ℝ) - (q + -(u / 2 ^ 30))) with h' | h'
      · rw [abs_of_nonneg h'] at n2; norm_num at n2 ⊢; linarith
      · rw [abs_of_nonpos h'] at n2; norm_num at n2 ⊢; linarith
  have hq12 : q < 2 ^ 12 * u := by
    rw [hqe, hu]
    refine mul_lt_mul_of_pos_right ?_ hpe
    have : 2 * L + 1 < 2 ^ 12 := by omega
    exact_mod_cast this
  have hq11 : 2 ^ 11 * u < q := by
    rw [hqe, hu]
    refine mul_lt_mul_of_pos_right ?_ hpe
    have : 2 ^ 11 < 2 * L + 1 := by omega
    exact_mod_cast this
  have hsqd : |m - q ^ 2| ≤ u ^ 2 / 2 ^ 17 := by
    have hm0 : (0 : ℝ) ≤ (m : ℝ) := by exact_mod_cast hm.le
    have hr : √(m : ℝ) ^ 2 = m := Real.sq_sqrt hm0
    have hr0 := Real.sqrt_nonneg (m : ℝ)
    have hu0' : (0 : ℝ) < (u : ℝ) := by exact_mod_cast hu0
    have hq12' : (q : ℝ) < 2 ^ 12 * u := by exact_mod_cast hq12
    have hq0' : (0 : ℝ) ≤ (q : ℝ) := by
      have : (0 : ℚ) ≤ q := by rw [hqe]; positivity
      exact_mod_cast this
    have h1 : |(m : ℝ) - q ^ 2| ≤ u ^ 2 / 2 ^ 17 := by
      rw [← hr, show √(m : ℝ) ^ 2 - (q : ℝ) ^ 2 = (√(m : ℝ) - q) * (√(m : ℝ) + q) by ring, abs_mul, abs_of_nonneg (add_nonneg hr0 hq0')]
      have h2 : √(m : ℝ) + q ≤ 2 ^ 14 * u := by
        have := (abs_le.1 hdist).2
        push_cast at this
        norm_num at this hq12' ⊢
        linarith
      push_cast at hdist
      calc |√(m : ℝ) - q| * (√(m : ℝ) + q) ≤ (u / 2 ^ 31) * (2 ^ 14 * u) := mul_le_mul hdist h2 (add_nonneg hr0 hq0') (by positivity)
        _ = u ^ 2 / 2 ^ 17 := by ring
    exact_mod_cast h1
  have hu2 : (2 : ℚ) ^ (2 * e) = u ^ 2 := by rw [hu, ← zpow_natCast, ← zpow_mul, mul_comm]; rfl
  have hup : 0 < u ^ 2 := by positivity
  rcases apart k3' hsq hne with h | h
  · have hp : (0 : ℚ) < (2 : ℚ) ^ i := zpow_pos (by norm_num) i
    have h3 : m < 2 ^ 11 * (2 : ℚ) ^ i := by
      rw [k3']
      refine mul_lt_mul_of_pos_right ?_ hp
      exact_mod_cast hN
    have h4 : u ^ 2 < q ^ 2 := by nlinarith
    have h5 := (abs_le.1 hsqd).1
    norm_num at h3 hsqd h5
    linarith
  · rw [hu2] at h
    norm_num at hsqd
    linarith

/-- C115: the square root of a positive half, computed in float64 and converted back, is the half nearest to it, and there is no tie. -/
theorem C115_root (hf : half.decode f.bits.toNat = .num false m) (hm : 0 < m) {r : F64} (hr : NearestRoot double m r.toNat) :
    ∃ h acc, newFromFloat64 r = .ok (h, acc) ∧ NearestRootOnly half m h.bits.toNat := by
  obtain ⟨q, hq, hn⟩ := hr
  obtain ⟨⟨j, hj⟩, -, hhi⟩ := half_value hf
  have hq0 := decode_nonneg hq
  have hm0 : (0 : ℝ) ≤ (m : ℝ) := by exact_mod_cast hm.le
  have hlo : (2 : ℚ) ^ (-24 : ℤ) ≤ m := by
    rw [show signed false m = m from rfl] at hj
    have h := one_le_abs (n := j) (u := (2 : ℚ) ^ (-24 : ℤ)) (by positivity) (hj ▸ hm.ne')
    rwa [← hj, abs_of_pos hm] at h
  have hR1 : (((2 : ℚ) ^ (-12 : ℤ) : ℚ) : ℝ) ≤ √(m : ℝ) := by
    rw [show (((2 : ℚ) ^ (-12 : ℤ) : ℚ) : ℝ) = √((((2 : ℚ) ^ (-24 : ℤ) : ℚ) : ℝ)) by
      rw [eq_comm, Real.sqrt_eq_iff_mul_self_eq (by positivity) (by positivity)]; push_cast; norm_num]
    exact Real.sqrt_le_sqrt (by exact_mod_cast hlo)
  have hR2 : √(m : ℝ) ≤ 2 ^ 8 := by
    rw [Real.sqrt_le_left (by norm_num)]
    have : m ≤ 2 ^ 16 := hhi.le
    have h : (m : ℝ) ≤ 2 ^ 16 := by exact_mod_cast this
    refine h.trans (by norm_num)
  have cand : ∀ e : ℤ, -1074 ≤ e → e < 1024 → |√(m : ℝ) - q| ≤ |√(m : ℝ) - (((2 : ℚ) ^ e : ℚ) : ℝ)| := by
    intro e e1 e2
    have hp : (0 : ℚ) < (2 : ℚ) ^ e := zpow_pos (by norm_num) e
    obtain ⟨c, hc⟩ := form_value (F := double) (by decide) (K := 1) (q := e) (v := (2 : ℚ) ^ e) (by decide) e1 (by rw [abs_of_pos hp]; simp)
      (by rw [abs_of_pos hp]; exact zpow_lt_zpow_right₀ (by norm_num) e2) false
    have h := hn _ _ _ hc
    rw [abs_of_pos hp] at h
    exact h
  have hqlo : (2 : ℚ) ^ (-14 : ℤ) ≤ q := by
    by_contra hlt
    push Not at hlt
    have h := cand (-14) (by norm_num) (by norm_num)
    have hlt' : (q : ℝ) < (((2 : ℚ) ^ (-14 : ℤ) : ℚ) : ℝ) := by exact_mod_cast hlt
    have h14 : (((2 : ℚ) ^ (-14 : ℤ) : ℚ) : ℝ) ≤ √(m : ℝ) := by
      refine le_trans ?_ hR1
      push_cast; norm_num
    rw [abs_of_pos (sub_pos.2 (hlt'.trans_le h14)), abs_of_nonneg (sub_nonneg.2 h14)] at h
    linarith
  have hqhi : q < 2 ^ (10 : ℤ) := by
    by_contra hlt
    push Not at hlt
    have h := cand 9 (by norm_num) (by norm_num)
    have hlt' : (((2 : ℚ) ^ (10 : ℤ) : ℚ) : ℝ) ≤ (q : ℝ) := by exact_mod_cast hlt
    push_cast at hlt' h
    norm_num at hlt' h hR2
    rw [abs_of_neg (by linarith), abs_of_neg (by linarith)] at h
    linarith
  obtain ⟨h, acc, e1, e2⟩ := C06_partial r (.inl ⟨_, q, hq, .inl ⟨hqlo, hqhi.trans (zpow_lt_zpow_right₀ (by norm_num) (by norm_num))⟩⟩)
  rw [hq] at e2
  refine ⟨h, acc, e1, ?_⟩
  have hqov : q < half.overflowAt := by
    refine hqhi.trans ?_
    norm_num [Format.overflowAt, half, Format.bias]
  replace e2 : half.RoundsTo false q h.bits.toNat := e2
  unfold Format.RoundsTo at e2
  rw [if_neg (not_le.2 hqov)] at e2
  obtain ⟨b, hb, hnear, -⟩ := e2
  refine ⟨b, hb, ?_⟩
  have hb0 := decode_nonneg hb
  obtain ⟨n, hnl, hbn, -, -⟩ := half.code_of_decode hb
  -- below every midpoint above, above every midpoint below
  have key : ∀ {k : ℕ} {M : ℚ}, k < half.infCode → M = (half.magc k + half.magc (k + 1)) / 2 → (q < M → √(m : ℝ) < M) ∧ (M < q → (M : ℝ) < √(m : ℝ)) := by
    intro k M hk hM
    obtain ⟨k', hk', e⟩ := halfway_half hk
    have hMk : M = double.magc k' := by rw [hM]; linarith
    have h := hn _ _ _ (double.decode_code false hk')
    rw [← hMk, show signed false M = M from rfl] at h
    constructor
    · intro hlt
      have hlt' : (q : ℝ) < M := by exact_mod_cast hlt
      by_contra hge
      push Not at hge
      rw [abs_of_pos (sub_pos.2 (hlt'.trans_le hge)), abs_of_nonneg (sub_nonneg.2 hge)] at h
      linarith
    · intro hlt
      have hlt' : (M : ℝ) < q := by exact_mod_cast hlt
      by_contra hge
      push Not at hge
      rw [abs_of_neg (sub_neg.2 (hge.trans_lt hlt')), abs_of_nonpos (sub_nonpos.2 hge)] at h
      linarith
  have hmidne : ∀ {k : ℕ} {M : ℚ}, k < half.infCode → M = (half.magc k + half.magc (k + 1)) / 2 → q ≠ M := by
    intro k M hk hM h
    refine root_not_halfway (c := k) hf hm hqlo hn ?_
    rw [halfway_iff half (by decide)]
    exact ⟨hk, by rw [h, hM]; ring⟩
  intro c' s' r' hd hne
  have hr0 := decode_nonneg hd
  have hqb := hnear _ _ _ hd
  rw [show signed false q = q from rfl, show signed false b = b from rfl] at hqb
  rcases lt_or_gt_of_ne hne with hlt | hlt
  · -- a smaller one
    obtain ⟨k, hkn⟩ : ∃ k, n = k + 1 := by
      rcases Nat.eq_zero_or_pos n with h0 | h0
      · exfalso
        -- zero is not nearest
        obtain ⟨k1, hk1, ek1⟩ := exists_code half (by decide) (N := 1) (q := -14) (by decide) (by decide) (by
          rw [Nat.cast_one, one_mul]; exact zpow_lt_zpow_right₀ (by norm_num) (by decide))
        have hz : b = 0 := by
          rw [hbn, h0]
          simp [Format.magc]
        have h := hnear _ _ _ (half.decode_code false hk1)
        rw [ek1, hz, Nat.cast_one, one_mul, show signed false q = q from rfl, show signed false 0 = 0 from rfl,
          show signed false ((2 : ℚ) ^ (-14 : ℤ)) = (2 : ℚ) ^ (-14 : ℤ) from rfl, sub_zero, abs_of_nonneg hq0, abs_of_nonneg (sub_nonneg.2 hqlo)] at h
        have : (0 : ℚ) < (2 : ℚ) ^ (-14 : ℤ) := by positivity
        linarith
      · exact ⟨n - 1, by omega⟩
    have hk : k < half.infCode := by omega
    have hle : signed s' r' ≤ half.magc k := by
      obtain ⟨n', hn', hrn, -, -⟩ := half.code_of_decode hd
      cases s'
      · rw [show signed false r' = r' from rfl, hrn] at hlt ⊢
        rw [hbn] at hlt
        have := half.magc_strictMono.lt_iff_lt.1 hlt
        exact half.magc_strictMono.monotone (by omega)
      · have : 0 ≤ half.magc k := by
          have h := decode_nonneg (half.decode_code false hk)
          exact h
        simp only [signed, if_true]
        linarith
    obtain ⟨M, hM⟩ : ∃ M : ℚ, M = (half.magc k + half.magc (k + 1)) / 2 := ⟨_, rfl⟩
    have hMb : M = (half.magc k + b) / 2 := by rw [hM, hbn, hkn]
    have hqM : M < q := by
      rcases lt_or_gt_of_ne (hmidne hk hM) with h | h
      · exfalso
        have h3 := hnear _ _ _ (half.decode_code false hk)
        rw [show signed false q = q from rfl, show signed false b = b from rfl, show signed false (half.magc k) = half.magc k from rfl] at h3
        have hkb : half.magc k < b := by rw [hbn, hkn]; exact half.magc_strictMono (Nat.lt_succ_self k)
        rw [abs_of_neg (by linarith)] at h3
        rcases le_total 0 (q - half.magc k) with h4 | h4
        · rw [abs_of_nonneg h4] at h3; linarith
        · rw [abs_of_nonpos h4] at h3; linarith
      · exact h
    have hR := (key hk hM).2 hqM
    have hle' : ((signed s' r' : ℚ) : ℝ) ≤ ((2 * M - b : ℚ) : ℝ) := by
      have : signed s' r' ≤ 2 * M - b := by rw [hMb]; linarith
      exact_mod_cast this
    have hlt' : ((signed s' r' : ℚ) : ℝ) < b := by exact_mod_cast hlt
    push_cast at hle'
    rw [abs_of_pos (show 0 < √(m : ℝ) - ((signed s' r' : ℚ) : ℝ) by linarith), abs_lt]
    constructor <;> linarith
  · -- a larger one
    obtain ⟨n', hn', hrn, -, -⟩ := half.code_of_decode hd
    obtain rfl : s' = false := by
      cases s'
      · rfl
      · exfalso; simp only [signed, if_true] at hlt; linarith
    rw [show signed false r' = r' from rfl] at hlt ⊢
    have hle : half.magc (n + 1) ≤ r' := by
      rw [hrn, hbn] at hlt
      rw [hrn]
      have := half.magc_strictMono.lt_iff_lt.1 hlt
      exact half.magc_strictMono.monotone (by omega)
    obtain ⟨M, hM⟩ : ∃ M : ℚ, M = (half.magc n + half.magc (n + 1)) / 2 := ⟨_, rfl⟩
    have hqM : q < M := by
      rcases lt_or_gt_of_ne (hmidne hnl hM) with h | h
      · exact h
      · exfalso
        have hn1 : n + 1 < half.infCode := by
          by_contra hge
          have hlt2 : half.magc n < half.magc n' := by rw [← hbn, ← hrn]; exact hlt
          have := half.magc_strictMono.lt_iff_lt.1 hlt2
          omega
        have h3 := hnear _ _ _ (half.decode_code false hn1)
        rw [show signed false q = q from rfl, show signed false b = b from rfl, show signed false (half.magc (n + 1)) = half.magc (n + 1) from rfl] at h3
        have hkb : b < half.magc (n + 1) := by rw [hbn]; exact half.magc_strictMono (Nat.lt_succ_self n)
        rw [← hbn] at hM
        rw [abs_of_pos (by linarith)] at h3
        rcases le_total 0 (q - half.magc (n + 1)) with h4 | h4
        · rw [abs_of_nonneg h4] at h3; linarith
        · rw [abs_of_nonpos h4] at h3; linarith
    have hR := (key hnl hM).1 hqM
    have hle' : ((2 * M - b : ℚ) : ℝ) ≤ ((r' : ℚ) : ℝ) := by
      have : 2 * M - b ≤ r' := by rw [hM, ← hbn]; linarith
      exact_mod_cast this
    have hlt' : (b : ℝ) < r' := by exact_mod_cast hlt
    push_cast at hle'
    rw [abs_of_neg (show √(m : ℝ) - (r' : ℝ) < 0 by linarith), abs_lt]
    constructor <;> linarith

/-- What an interval of doubles around a square root is, in terms of the significand. -/
theorem root_by_interval {x : ℚ} {k N : ℕ} {r : F64} (hx : 0 ≤ x) (hN : 2 ^ 52 < N) (hN2 : N < 2 ^ 53) (hk : k + 3 ≤ 2 ^ 11)
    (hr : r.toNat = k * 2 ^ 52 + N) (h1 : ((2 * (N : ℚ) - 1) * (2 : ℚ) ^ (-1074 + k : ℤ)) ^ 2 ≤ 4 * x)
    (h2 : 4 * x ≤ ((2 * (N : ℚ) + 1) * (2 : ℚ) ^ (-1074 + k : ℤ)) ^ 2) : NearestRoot double x r.toNat := by
  have hn : k * 2 ^ 52 + N < double.infCode := by
    show k * 2 ^ 52 + N < (2 ^ 11 - 1) * 2 ^ 52
    omega
  have e0 : double.magc (k * 2 ^ 52 + N) = N * (2 : ℚ) ^ (-1074 + k : ℤ) := double.magc_eq (k := k) (N := N) hN2.le (.inr hN.le)
  have e1 : double.magc (k * 2 ^ 52 + N + 1) = (N + 1) * (2 : ℚ) ^ (-1074 + k : ℤ) := magc_succ double (k := k) (N := N) hN2 (.inr hN.le)
  have e2 : double.magc (k * 2 ^ 52 + N - 1) = (N - 1) * (2 : ℚ) ^ (-1074 + k : ℤ) := magc_pred double (k := k) (N := N) hN2 (by omega) (.inr hN)
  have hP : (0 : ℚ) < (2 : ℚ) ^ (-1074 + k : ℤ) := zpow_pos (by norm_num) _
  generalize (2 : ℚ) ^ (-1074 + k : ℤ) = P at *
  obtain ⟨n, hcode⟩ : ∃ n, n = k * 2 ^ 52 + N := ⟨_, rfl⟩
  rw [← hcode] at hn e0 e1 e2 hr
  have hNq : (1 : ℚ) ≤ N := by exact_mod_cast (by omega : 1 ≤ N)
  have hx0 : (0 : ℝ) ≤ (x : ℝ) := by exact_mod_cast hx
  have hR := Real.sq_sqrt hx0
  have hR0 := Real.sqrt_nonneg (x : ℝ)
  have r1 : (((2 * (N : ℚ) - 1) * P : ℚ) : ℝ) ≤ 2 * √(x : ℝ) := by
    refine le_of_sq_le_sq ?_ (by linarith)
    rw [mul_pow, hR]
    have : (((2 * (N : ℚ) - 1) * P) ^ 2 : ℚ) ≤ 2 ^ 2 * x := by linarith
    exact_mod_cast this
  have r2 : 2 * √(x : ℝ) ≤ (((2 * (N : ℚ) + 1) * P : ℚ) : ℝ) := by
    refine le_of_sq_le_sq ?_ (by
      have : (0 : ℚ) ≤ (2 * (N : ℚ) + 1) * P := by positivity
      exact_mod_cast this)
    rw [mul_pow, hR]
    have : 2 ^ 2 * x ≤ (((2 * (N : ℚ) + 1) * P) ^ 2 : ℚ) := by linarith
    exact_mod_cast this
  refine ⟨double.magc n, by
    have h := double.decode_code false hn
    rw [signPart_false, zero_add] at h
    rw [hr]
    exact h, ?_⟩
  intro c' s r' hd
  have hr0 := decode_nonneg hd
  obtain ⟨n', hn', hrn, -, -⟩ := double.code_of_decode hd
  have split : signed s r' ≤ double.magc (n - 1) ∨ signed s r' = double.magc n ∨ double.magc (n + 1) ≤ signed s r' := by
    have hpred : 0 ≤ double.magc (n - 1) := by
      rw [e2]
      exact mul_nonneg (by linarith) hP.le
    cases s
    · rw [show signed false r' = r' from rfl, hrn]
      rcases lt_trichotomy n' n with h | h | h
      · exact .inl (double.magc_strictMono.monotone (by omega))
      · exact .inr (.inl (by rw [h]))
      · exact .inr (.inr (double.magc_strictMono.monotone (by omega)))
    · exact .inl (by simp only [signed, if_true]; linarith)
  rw [e0, e1, e2] at split
  rw [e0]
  rcases split with h | h | h
  · have h' : ((signed s r' : ℚ) : ℝ) ≤ (((N - 1) * P : ℚ) : ℝ) := by exact_mod_cast h
    have hP' : (0 : ℝ) < (P : ℝ) := by exact_mod_cast hP
    push_cast at h' r1 r2 ⊢
    rw [abs_of_nonneg (show 0 ≤ √(x : ℝ) - ((signed s r' : ℚ) : ℝ) by nlinarith), abs_le]
    constructor <;> nlinarith
  · rw [h]
  · have h' : (((N + 1) * P : ℚ) : ℝ) ≤ ((signed s r' : ℚ) : ℝ) := by exact_mod_cast h
    have hP' : (0 : ℝ) < (P : ℝ) := by exact_mod_cast hP
    push_cast at h' r1 r2 ⊢
    rw [abs_of_nonpos (show √(x : ℝ) - ((signed s r' : ℚ) : ℝ) ≤ 0 by nlinarith), abs_le]
    constructor <;> nlinarith

-- the square root of 2
example := C115_root (f := ⟨0x4000⟩) (m := 2) (r := 0x3FF6A09E667F3BCD) (by
    show half.decode 0x4000 = _
    norm_num [half, Format.decode, Format.bias]) (by norm_num)
  (root_by_interval (k := 1022) (N := 0x16A09E667F3BCD) (by norm_num) (by norm_num) (by norm_num) (by norm_num) (by decide) (by norm_num) (by norm_num))

end GoFloat.Binary16
