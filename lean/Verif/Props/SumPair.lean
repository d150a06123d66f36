import Verif.Props.PairRange
import Verif.Props.Sum
/-
C104 for float128ppc: adding and subtracting by way of `Big`, `Add` or `Sub` of math/big, and `NewFromBig`.
-/
namespace GoFloat.Float128ppc
open Spec

variable {z : BigFloat} {f g : Float} {s₁ s₂ t₁ t₂ : Bool} {m₁ m₂ n₁ n₂ u w : ℚ}

theorem roundsToBits_abs {p : ℕ} {v r : ℚ} (h : RoundsToBits p v r) : RoundsToBits p |v| (signed (decide (v < 0)) r) := by
  refine roundsToBits_mag (s := decide (v < 0)) ?_
  rw [signed_of_decide]
  by_cases hv : v < 0
  · simpa [signed, hv] using h
  · simpa [signed, hv] using h

/-- A multiple of the smallest subnormal double, rounded to 106 bits, can be held by a pair. -/
theorem holdable_rounded {j : ℤ} {v r : ℚ} (hv : v = j * (2 : ℚ) ^ (-1074 : ℤ)) (h : RoundsToBits 106 v r) : Holdable r := by
  by_cases h0 : v = 0
  · rw [h0] at h
    have := eq_of_fits h (K := 0) (e := 0) (by norm_num) (by simp)
    exact ⟨0, 0, by norm_num, by norm_num, by rw [this]; simp⟩
  · have hj : j.natAbs ≠ 0 := by
      intro hj
      exact h0 (by rw [hv, Int.natAbs_eq_zero.1 hj]; simp)
    have ha : |v| = (j.natAbs : ℚ) * (2 : ℚ) ^ (-1074 : ℤ) := by
      rw [hv, abs_mul, abs_of_pos (by positivity : (0 : ℚ) < (2 : ℚ) ^ (-1074 : ℤ)), Nat.cast_natAbs]; push_cast; rfl
    obtain ⟨N, q, h1, h2, h3, -⟩ := rounded_multiple_of (t := 105) hj ha (roundsToBits_abs h)
    have hN : |(N : ℤ)| < 2 ^ 106 := by rw [abs_of_nonneg (by positivity)]; exact_mod_cast h1
    by_cases hn : v < 0
    · refine ⟨-N, q, by rwa [abs_neg], h2, ?_⟩
      simp only [signed, hn, decide_true, if_true] at h3
      push_cast
      linarith
    · refine ⟨N, q, hN, h2, ?_⟩
      simp only [signed, hn, decide_false] at h3
      push_cast
      simpa using h3

theorem fits_zero {r : ℚ} (h : RoundsToBits 106 0 r) : r = 0 :=
  eq_of_fits h (K := 0) (e := 0) (by norm_num) (by simp)

theorem rounded_unique {v r r' : ℚ} (h : RoundsToBits 106 v r) (h' : RoundsToBits 106 v r') : r = r' := by
  by_cases h0 : v = 0
  · subst h0; rw [fits_zero h, fits_zero h']
  · exact RoundsToBits.unique (by norm_num) h0 h h'

theorem rounded_cap {v r : ℚ} {e : ℤ} (h : RoundsToBits 106 v r) (hv : |v| ≤ (2 : ℚ) ^ e) : |r| ≤ (2 : ℚ) ^ e := by
  have hb := two_pow_bits 105 e
  rw [abs_le] at hv ⊢
  constructor
  · have := ge_of_ge h (K := -1) (e := e) (by rw [abs_neg]; exact hb.1) (by push_cast; linarith [hv.1])
    push_cast at this
    linarith
  · have := le_of_le h (K := 1) (e := e) hb.1 (by rw [hb.2]; exact hv.2)
    rwa [hb.2] at this

/-- What `Big` returns for a pair of finite halves. -/
theorem big_held (h1 : double.decode f.high.toNat = .num s₁ m₁) (h2 : double.decode f.low.toNat = .num s₂ m₂)
    (hu : RoundsToBits 106 (signed s₁ m₁ + signed s₂ m₂) u) :
    ∃ x s m, f.big = .ok (x, false) ∧ x.prec = 106 ∧ x.WF ∧ x.datum = .num s m ∧ signed s m = u ∧ Holdable u ∧ |u| ≤ 2 ^ (1025 : ℤ) := by
  obtain ⟨x, nan, hb, hs⟩ := C27_partial f (by intro s; rw [h1]; simp)
  rw [h1, h2] at hs
  obtain ⟨rfl, p1, -, p2, s, m, hd, hr, -⟩ := hs
  obtain ⟨⟨j, hj⟩, b1⟩ := decode_multiple (F := double) (by decide) h1
  obtain ⟨⟨j', hj'⟩, b2⟩ := decode_multiple (F := double) (by decide) h2
  refine ⟨x, s, m, hb, p1, p2, hd, rounded_unique hr hu, ?_, ?_⟩
  · refine holdable_rounded (j := j + j') ?_ hu
    rw [hj, hj', show double.qmin = -1074 by decide]
    push_cast
    ring
  · refine rounded_cap hu ((abs_add_le _ _).trans ?_)
    rw [show double.bias + 1 = 1024 by decide] at b1 b2
    obtain ⟨n, -, rfl, -⟩ := double.code_of_decode h1
    obtain ⟨n', -, rfl, -⟩ := double.code_of_decode h2
    rw [BigFloat.signed_abs (double.magc_nonneg _), BigFloat.signed_abs (double.magc_nonneg _), show (1025 : ℤ) = 1024 + 1 by norm_num, zpow_add_one₀ (by norm_num)]
    generalize (2 : ℚ) ^ (1024 : ℤ) = P at b1 b2 ⊢
    linarith

/-- What comes back from the sum `v` of two numbers of 106 bits: its rounding to 106 bits, unless that is out of the range of float64. -/
def Back (s : Bool) (v : ℚ) (r : BigFloat) : Prop :=
  (v = 0 → newFromBig r = .ok ((if s then NegZero else Zero, .exact), r)) ∧
  (v ≠ 0 → ∃ q, RoundsToBits 106 v q ∧ (double.overflowAt ≤ |q| → newFromBig r = .error .errNaN) ∧
    (|q| < double.overflowAt → ∃ h r' a₁ k₁ a₂ k₂, newFromBig r = .ok ((h, .exact), r') ∧ double.decode h.high.toNat = .num a₁ k₁ ∧
      double.decode h.low.toNat = .num a₂ k₂ ∧ signed a₁ k₁ + signed a₂ k₂ = q ∧ double.RoundsTo (decide (v < 0)) |q| h.high.toNat))

theorem add_back {x y : BigFloat} {s s' : Bool} {m m' : ℚ} (hz : z.prec = 0 ∨ z.prec = 106) (hmode : z.mode = .toNearestEven) (hx : x.WF) (hy : y.WF)
    (hxp : x.prec = 106) (hyp : y.prec = 106) (hxd : x.datum = .num s m) (hyd : y.datum = .num s' m') (hu : Holdable (signed s m)) (hw : Holdable (signed s' m'))
    (bu : |signed s m| ≤ 2 ^ (1025 : ℤ)) (bw : |signed s' m'| ≤ 2 ^ (1025 : ℤ)) :
    ∃ r, z.add x y = .ok r ∧ Back (s && s') (signed s m + signed s' m') r := by
  have hzp : (if z.prec = 0 then max x.prec y.prec else z.prec) = 106 := by rw [hxp, hyp, max_self]; split_ifs <;> omega
  obtain ⟨hxs, hxf, hxn⟩ := BigFloat.sval_of_datum hx hxd
  obtain ⟨hys, hyf, hyn⟩ := BigFloat.sval_of_datum hy hyd
  by_cases h0 : signed s m + signed s' m' = 0
  · obtain ⟨r, hr, k1, k2, -⟩ := add_cancel (p := 106) (by norm_num) (by decide) hz hmode hx hy hxp hyp hxf hyf (by rw [hxs, hys]; exact h0)
    refine ⟨r, hr, fun _ => ?_, fun h => absurd h0 h⟩
    rw [newFromBig_zero k1, k2, hxn, hyn]
  · obtain ⟨r, hr, hr1, -⟩ := (BigFloat.C91_add (z := z) (by rcases hz with h | h <;> rw [h] <;> decide) hx hy).2.2 s m s' m' hxd hyd
    rw [hzp, hmode] at hr1
    obtain ⟨b1, b2, b3, b4, b5⟩ := hr1 h0
    obtain ⟨j, hj⟩ := holdable_multiple hu
    obtain ⟨j', hj'⟩ := holdable_multiple hw
    set v := signed s m + signed s' m' with hv
    have hvz : v = ((j + j' : ℤ) : ℚ) * (2 : ℚ) ^ (-1074 : ℤ) := by rw [hv, hj, hj', Int.cast_add, add_mul]
    have hcap : |v| ≤ (2 : ℚ) ^ (1026 : ℤ) := by
      refine (abs_add_le _ _).trans ?_
      rw [show (1026 : ℤ) = 1025 + 1 by norm_num, zpow_add_one₀ (by norm_num)]
      generalize (2 : ℚ) ^ (1025 : ℤ) = P at bu bw ⊢
      linarith
    have hge : (2 : ℚ) ^ (-1074 : ℤ) ≤ |v| := by
      have hjz : j + j' ≠ 0 := by
        intro h
        rw [h, Int.cast_zero, zero_mul] at hvz
        exact h0 hvz
      have h1 : (1 : ℚ) ≤ |((j + j' : ℤ) : ℚ)| := by exact_mod_cast Int.one_le_abs hjz
      rw [hvz, abs_mul, abs_of_pos (zpow_pos (by norm_num : (0 : ℚ) < 2) _)]
      exact le_mul_of_one_le_left (zpow_pos (by norm_num) _).le h1
    have hfin : r.form = .finite ∧ RoundsToBits 106 v r.sval := by
      rcases b5 with ⟨h1, h2, -⟩ | ⟨-, -, h⟩ | ⟨-, -, h⟩
      · exact ⟨h1, h2.2⟩
      · exact absurd (hge.trans_lt h) (not_lt.2 (zpow_le_zpow_right₀ (by norm_num) (by decide)))
      · exfalso
        have hlt : (2 : ℚ) ^ (1026 : ℤ) < (2 : ℚ) ^ BigFloat.MaxExp := zpow_lt_zpow_right₀ (by norm_num) (by decide)
        rcases h with h | h
        · exact absurd (h.trans hcap) (not_le.2 hlt)
        · have h2 := rounded_cap (e := 1026) (h.2 : RoundsToBits 106 v _) hcap
          rw [BigFloat.signed_abs (zpow_pos (by norm_num) _).le] at h2
          exact absurd h2 (not_le.2 hlt)
    obtain ⟨hf, hrb⟩ := hfin
    have hhold := holdable_rounded hvz hrb
    refine ⟨r, hr, fun h => absurd h h0, fun _ => ⟨r.sval, hrb, ?_⟩⟩
    obtain ⟨q, hq, q1, q2⟩ := newFromBig_mode b4 hf
    have hne : r.sval ≠ 0 := by
      have := BigFloat.mag_pos (b4.mant_pos hf)
      rw [BigFloat.sval_finite hf]
      intro h
      have h2 := BigFloat.signed_abs (s := r.neg) this.le
      rw [h, abs_zero] at h2
      exact this.ne h2
    have hqs : q = r.sval := by
      rw [b2] at hq
      obtain ⟨k, e, hk, he⟩ := hrb.1
      exact eq_of_fits hq.2 hk he
    rw [hqs] at q1 q2
    refine ⟨q1, fun hlt => ?_⟩
    obtain ⟨hi, lo, rh, r', c1, -, -, -, -, c5, -⟩ := q2 hlt
    obtain ⟨-, a₁, k₁, a₂, k₂, d1, d2, d3⟩ := C99_exact r b4 hf c1
    exact ⟨_, r', a₁, k₁, a₂, k₂, c1, d1, d2, d3.2 hhold, by rw [← b3]; exact c5⟩

theorem negSelf_datum {y : BigFloat} {s : Bool} {m : ℚ} (h : y.datum = .num s m) : y.negSelf.datum = .num (!s) m := by
  unfold BigFloat.datum at h ⊢
  rw [show y.negSelf.form = y.form from rfl]
  cases hf : y.form <;> rw [hf] at h
  · obtain ⟨rfl, h'⟩ := Datum.num.inj h; rw [← h']; rfl
  · obtain ⟨rfl, h'⟩ := Datum.num.inj h; rw [← h']; rfl
  · cases h

/-- C104 for float128ppc: `u` and `w` are the sums of the halves, rounded to 106 bits (the sums themselves, if the pairs are canonical). -/
theorem C104_float128ppc (h1 : double.decode f.high.toNat = .num s₁ m₁) (h2 : double.decode f.low.toNat = .num s₂ m₂)
    (h3 : double.decode g.high.toNat = .num t₁ n₁) (h4 : double.decode g.low.toNat = .num t₂ n₂)
    (hu : RoundsToBits 106 (signed s₁ m₁ + signed s₂ m₂) u) (hw : RoundsToBits 106 (signed t₁ n₁ + signed t₂ n₂) w)
    (hz : z.prec = 0 ∨ z.prec = 106) (hmode : z.mode = .toNearestEven) :
    ∃ x y, f.big = .ok (x, false) ∧ g.big = .ok (y, false) ∧
      (∃ r, z.add x y = .ok r ∧ Back (x.neg && y.neg) (u + w) r) ∧ (∃ r, z.sub x y = .ok r ∧ Back (x.neg && !y.neg) (u - w) r) := by
  obtain ⟨x, s, m, b1, p1, w1, d1, e1, o1, c1⟩ := big_held h1 h2 hu
  obtain ⟨y, s', m', b2, p2, w2, d2, e2, o2, c2⟩ := big_held h3 h4 hw
  obtain rfl := (BigFloat.sval_of_datum w1 d1).2.2
  obtain rfl := (BigFloat.sval_of_datum w2 d2).2.2
  refine ⟨x, y, b1, b2, ?_, ?_⟩
  · have := add_back hz hmode w1 w2 p1 p2 d1 d2 (e1 ▸ o1) (e2 ▸ o2) (le_of_eq_of_le (congrArg abs e1) c1) (le_of_eq_of_le (congrArg abs e2) c2)
    rwa [e1, e2] at this
  · have e3 : signed (!y.neg) m' = -w := by rw [← e2]; cases y.neg <;> simp [signed]
    rw [BigFloat.sub_eq (fun _ _ => by omega), sub_eq_add_neg, ← e3]
    have := add_back hz hmode w1 (BigFloat.negSelf_wf w2) p1 p2 d1 (negSelf_datum d2) (e1 ▸ o1)
      (by rw [e3]; obtain ⟨k, e, hk, he, rfl⟩ := o2; exact ⟨-k, e, by rwa [abs_neg], he, by push_cast; ring⟩) (le_of_eq_of_le (congrArg abs e1) c1)
      (le_of_eq_of_le ((congrArg abs e3).trans (abs_neg w)) c2)
    rwa [e1] at this

theorem roundsToBits_self {p : ℕ} {v : ℚ} (h : ∃ k e : ℤ, |k| < 2 ^ p ∧ v = k * (2 : ℚ) ^ e) : RoundsToBits p v v := by
  refine ⟨h, fun k e _ => by rw [sub_self, abs_zero]; exact abs_nonneg _, fun k e _ hne heq => ?_⟩
  rw [sub_self, abs_zero, eq_comm, abs_eq_zero, sub_eq_zero] at heq
  exact absurd heq.symm hne

-- -11/8 and -11/8
example := C104_float128ppc (z := ⟨0, .toNearestEven, .exact, .zero, false, 0, 0⟩) (f := ⟨0xBFF6000000000000, 0⟩) (g := ⟨0xBFF6000000000000, 0⟩)
  Sample.x_double (s₂ := false) (m₂ := 0) (roundsTo_zero double (by decide) false).1 Sample.x_double (roundsTo_zero double (by decide) false).1
  (roundsToBits_self ⟨-11, -3, by norm_num, by norm_num [signed]⟩) (roundsToBits_self ⟨-11, -3, by norm_num, by norm_num [signed]⟩) (.inl rfl) rfl
-- both cases of the range: the largest double and itself, and a sum in range
example : double.overflowAt ≤ |(2 : ℚ) ^ (1024 : ℤ)| := by
  rw [abs_of_pos (by positivity)]
  decide +kernel

end GoFloat.Float128ppc
