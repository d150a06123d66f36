import Verif.Props.RelError
import Verif.Props.Settle
import Verif.Props.DecimalText
import Verif.Proofs.FormatFloat
/-
Property C99: exactly which numbers a double-double can hold, and which of them follow each other.
-/
namespace GoFloat.Float128ppc
open Spec

/-- Multiples of the smallest subnormal double with at most 106 significant bits. -/
def Holdable (v : ℚ) : Prop := ∃ k e : ℤ, |k| < 2 ^ 106 ∧ -1074 ≤ e ∧ v = k * (2 : ℚ) ^ e

theorem pow_small : (2 : ℚ) ^ (-969 : ℤ) = 2 ^ 105 * (2 : ℚ) ^ (-1074 : ℤ) := by
  rw [← zpow_natCast, ← zpow_add₀ (by norm_num)]
  norm_num

/-- A multiple of the smallest subnormal below 2^-969 has at most 105 bits. -/
theorem holdable_small {v : ℚ} {K : ℤ} (hK : v = K * (2 : ℚ) ^ (-1074 : ℤ)) (hlt : |v| < 2 ^ (-969 : ℤ)) : Holdable v := by
  refine ⟨K, -1074, ?_, le_refl _, hK⟩
  rw [hK, abs_mul, abs_of_pos (zpow_pos (by norm_num : (0 : ℚ) < 2) _), pow_small] at hlt
  have h1 := lt_of_mul_lt_mul_right hlt (zpow_pos (by norm_num : (0 : ℚ) < 2) (-1074)).le
  have h2 : |K| < 2 ^ 105 := by exact_mod_cast h1
  exact h2.trans (by norm_num)

theorem holdable_multiple {v : ℚ} (h : Holdable v) : ∃ K : ℤ, v = K * (2 : ℚ) ^ (-1074 : ℤ) := by
  obtain ⟨k, e, -, he, rfl⟩ := h
  obtain ⟨j, rfl⟩ : ∃ j : ℕ, e = -1074 + j := ⟨(e + 1074).toNat, by omega⟩
  refine ⟨k * 2 ^ j, ?_⟩
  rw [zpow_add₀ (by norm_num), zpow_natCast, Int.cast_mul, Int.cast_pow, Int.cast_ofNat, mul_comm ((2 : ℚ) ^ (-1074 : ℤ)), mul_assoc]

/-- The sum of two doubles that fits in 106 bits. -/
theorem holdable_sum {s₁ s₂ : Bool} {m₁ m₂ : ℚ} {c₁ c₂ : ℕ} (h1 : double.decode c₁ = .num s₁ m₁) (h2 : double.decode c₂ = .num s₂ m₂) {k e : ℤ}
    (hk : |k| < 2 ^ 106) (hv : signed s₁ m₁ + signed s₂ m₂ = k * (2 : ℚ) ^ e) : Holdable (signed s₁ m₁ + signed s₂ m₂) := by
  obtain ⟨K, hK⟩ := sum_multiple h1 h2
  rcases le_or_gt (-1074) e with he | he
  · exact ⟨k, e, hk, he, hv⟩
  · refine ⟨K, -1074, lt_of_le_of_lt ?_ hk, le_refl _, hK⟩
    obtain ⟨j, hj⟩ : ∃ j : ℕ, e = -1074 - j := ⟨(-1074 - e).toNat, by omega⟩
    have h3 : k = K * 2 ^ j := by
      have h4 : (k : ℚ) * (2 : ℚ) ^ e = K * (2 : ℚ) ^ (-1074 : ℤ) := by rw [← hv, hK]
      rw [hj, zpow_sub₀ (by norm_num), zpow_natCast, mul_div_assoc', div_eq_iff (by positivity)] at h4
      have h5 : (k : ℚ) = K * 2 ^ j :=
        mul_right_cancel₀ (zpow_pos (by norm_num : (0 : ℚ) < 2) (-1074)).ne' (by rw [h4]; ring)
      exact_mod_cast h5
    rw [h3, abs_mul]
    refine le_mul_of_one_le_right (abs_nonneg _) ?_
    rw [abs_of_nonneg (by positivity)]
    exact_mod_cast Nat.one_le_two_pow

/-- Small multiples of the smallest subnormal are doubles. -/
theorem small_double {D : ℚ} {K : ℤ} (hD : D = K * (2 : ℚ) ^ (-1074 : ℤ)) (hK : |K| ≤ 2 ^ 52) {s : Bool} {c : ℕ} (h : double.RoundsTo s |D| c) :
    double.decode c = .num s |D| := by
  have hN : K.natAbs ≤ 2 ^ 52 := by
    have : (K.natAbs : ℤ) ≤ 2 ^ 52 := by rw [Int.natCast_natAbs]; exact hK
    exact_mod_cast this
  have hlt : K.natAbs < double.infCode := lt_of_le_of_lt hN (by decide)
  have hm : double.magc K.natAbs = |D| := by
    have := double.magc_eq (k := 0) (N := K.natAbs) (hN.trans (by decide)) (Or.inl rfl)
    rw [Nat.zero_mul, Nat.zero_add] at this
    rw [this, hD, abs_mul, abs_of_pos (zpow_pos (by norm_num : (0 : ℚ) < 2) _), double_facts.1, Nat.cast_natAbs, Int.cast_abs]
    norm_num
  have h1 := Strconv.roundsTo_self (F := double) (Or.inr (Or.inr rfl)) hlt s
  rw [hm] at h1
  rw [RoundsTo.unique (by decide) h h1, double.decode_code _ hlt, hm]

/-- Below 2^-969 the remainder of a multiple of the smallest subnormal is a double. -/
theorem low_small {v rh : ℚ} {s : Bool} {high low : F64} (hv : ∃ K : ℤ, v = K * (2 : ℚ) ^ (-1074 : ℤ)) (hlt : |v| < 2 ^ (-969 : ℤ))
    (h1 : double.decode high.toNat = .num s rh) (h2 : signed s |v| = v) (h3 : double.RoundsTo s |v| high.toNat)
    (h4 : v - signed s rh = 0 → low = 0)
    (h5 : v - signed s rh ≠ 0 → double.RoundsTo (decide (v - signed s rh < 0)) |v - signed s rh| low.toNat) :
    ∃ s' m', double.decode low.toNat = .num s' m' ∧ signed s' m' = v - signed s rh := by
  by_cases h0 : v - signed s rh = 0
  · exact ⟨false, 0, by rw [h4 h0]; exact double_zero, by rw [h0]; rfl⟩
  · have hov : |v| < double.overflowAt := hlt.trans ((zpow_lt_one_of_neg₀ (by norm_num : (1 : ℚ) < 2) (by norm_num)).trans (lt_trans (by norm_num) one_lt_overflow))
    obtain ⟨r, hr, herr⟩ := nearest_err double (by decide) (abs_nonneg v) hov h3
    rw [h1] at hr
    injection hr with _ hr
    subst hr
    obtain ⟨K, hK⟩ := hv
    obtain ⟨N1, e1, -⟩ := double_multiple h1
    have hD : v - signed s rh = ((K - (if s then -(N1 : ℤ) else N1) : ℤ) : ℚ) * (2 : ℚ) ^ (-1074 : ℤ) := by
      rw [hK, e1]
      generalize (2 : ℚ) ^ (-1074 : ℤ) = u
      cases s <;> simp [signed] <;> ring
    have habs : |v - signed s rh| = |rh - (|v|)| := by
      conv_lhs => rw [← h2]
      rw [abs_sub_comm]
      unfold signed
      cases s
      · simp
      · simp only [if_true]
        rw [show -rh - -|v| = -(rh - |v|) by ring, abs_neg]
    have hb : |v - signed s rh| ≤ 2 ^ 52 * (2 : ℚ) ^ (-1074 : ℤ) := by
      rw [habs]
      refine herr.trans (max_le ?_ ?_)
      · have e2 : (2 : ℚ) ^ (-969 : ℤ) * (2 : ℚ) ^ (-((double.t : ℤ) + 1)) = 2 ^ 52 * (2 : ℚ) ^ (-1074 : ℤ) := by
          rw [show (double.t : ℤ) = 52 from rfl, ← zpow_natCast, ← zpow_add₀ (by norm_num), ← zpow_add₀ (by norm_num)]
          norm_num
        rw [← e2]
        exact mul_le_mul_of_nonneg_right hlt.le (zpow_pos (by norm_num) _).le
      · rw [double_facts.1, ← zpow_natCast, ← zpow_add₀ (by norm_num)]
        exact zpow_le_zpow_right₀ (by norm_num) (by norm_num)
    have hK2 : |K - (if s then -(N1 : ℤ) else N1)| ≤ 2 ^ 52 := by
      rw [hD, abs_mul, abs_of_pos (zpow_pos (by norm_num : (0 : ℚ) < 2) _)] at hb
      have := le_of_mul_le_mul_right hb (zpow_pos (by norm_num : (0 : ℚ) < 2) (-1074))
      exact_mod_cast this
    refine ⟨_, _, small_double hD hK2 (h5 h0), ?_⟩
    rcases lt_or_ge (v - signed s rh) 0 with h6 | h6
    · rw [decide_eq_true h6, abs_of_neg h6]; simp [signed]
    · rw [decide_eq_false (not_lt.2 h6), abs_of_nonneg h6]; simp [signed]

/-- The remainder is below the double range. -/
theorem low_finite {v rh : ℚ} {s : Bool} {high low : F64} (h1 : double.decode high.toNat = .num s rh) (h2 : signed s |v| = v)
    (h3 : double.RoundsTo s |v| high.toNat) (ho : |v| < double.overflowAt)
    (h5 : double.RoundsTo (decide (v - signed s rh < 0)) |v - signed s rh| low.toNat) :
    ∃ r, double.decode low.toNat = .num (decide (v - signed s rh < 0)) r := by
  have hlt : |v - signed s rh| < double.overflowAt := by
    refine lt_of_le_of_lt ?_ ho
    unfold Format.RoundsTo at h3
    rw [if_neg (not_le.2 ho)] at h3
    obtain ⟨r, hr, hmin, -⟩ := h3
    rw [h1] at hr
    injection hr with _ hr
    subst hr
    have := hmin _ _ _ (roundsTo_zero double (by decide) false).1
    rw [h2] at this
    simpa [signed] using this
  unfold Format.RoundsTo at h5
  rw [if_neg (not_le.2 hlt)] at h5
  obtain ⟨r, hr, -⟩ := h5
  exact ⟨r, hr⟩

/-- C99: what `NewFromBig` returns for a finite number has the value of the number exactly if the number is a multiple of the smallest
subnormal double with at most 106 bits, whatever the precision and the rounding mode of the argument; `Exact` is reported in any case. -/
theorem C99_exact (x : BigFloat) (hx : x.WF) (hf : x.form = .finite) {f : Float} {acc : Accuracy} {x' : BigFloat}
    (h : newFromBig x = .ok ((f, acc), x')) : acc = .exact ∧ ∃ s₁ m₁ s₂ m₂, double.decode f.high.toNat = .num s₁ m₁ ∧
      double.decode f.low.toNat = .num s₂ m₂ ∧ (signed s₁ m₁ + signed s₂ m₂ = x.sval ↔ Holdable x.sval) := by
  obtain ⟨v, hv, hp, hs⟩ := newFromBig_mode hx hf
  rcases le_or_gt double.overflowAt |v| with ho | ho
  · rw [hp ho] at h; cases h
  obtain ⟨high, low, rh, y, c1, -, -, c3, c4, c5, c6, c7, c8⟩ := hs ho
  rw [c1] at h
  simp only [Except.ok.injEq, Prod.mk.injEq] at h
  obtain ⟨⟨rfl, rfl⟩, -⟩ := h
  refine ⟨rfl, ?_⟩
  have hxm := BigFloat.mag_pos (hx.mant_pos hf)
  have habs : |x.sval| = x.mag := by rw [BigFloat.sval_finite hf, BigFloat.signed_abs hxm.le]
  have hne := sval_ne_zero hx hf
  have hself : Holdable x.sval → v = x.sval := by
    rintro ⟨k, e, hk, -, he⟩
    exact RoundsToBitsIn.unique (by norm_num) hne hv (roundsToBitsIn_self ⟨k, e, hk, he⟩)
  have hlow : ∃ s₂ m₂, double.decode low.toNat = .num s₂ m₂ := by
    by_cases h0 : v - signed x.neg rh = 0
    · exact ⟨false, 0, by rw [c6 h0]; exact double_zero⟩
    · obtain ⟨r, hr⟩ := low_finite c3 c4 c5 ho (c7 h0)
      exact ⟨_, r, hr⟩
  obtain ⟨s₂, m₂, hl⟩ := hlow
  refine ⟨x.neg, rh, s₂, m₂, c3, hl, ?_⟩
  rcases le_or_gt (2 ^ (-969 : ℤ)) x.mag with hb | hb
  · obtain ⟨⟨s', m', d1, d2⟩, -⟩ := c8 hb
    have d1 : double.decode low.toNat = .num s' m' := d1
    rw [hl] at d1
    injection d1 with e1 e2
    subst e1 e2
    have hsum : signed x.neg rh + signed s₂ m₂ = v := by rw [d2]; ring
    constructor
    · intro h
      obtain ⟨⟨k, e, hk, he⟩, -⟩ := hv
      rw [← h]
      exact holdable_sum c3 hl hk (hsum.trans he)
    · intro h
      rw [hsum, hself h]
  · constructor
    · intro h
      obtain ⟨K, hK⟩ := sum_multiple c3 hl
      rw [h] at hK
      exact holdable_small hK (by rw [habs]; exact hb)
    · intro h
      have hvx := hself h
      obtain ⟨s', m', d1, d2⟩ := low_small (by rw [hvx]; exact holdable_multiple h) (by rw [hvx, habs]; exact hb) c3 c4 c5 c6 c7
      rw [hl] at d1
      injection d1 with e1 e2
      subst e1 e2
      rw [d2, ← hvx]
      ring

/-- The pair of `newFromBig` for a number that it can hold is canonical. -/
theorem exists_pair {v : ℚ} (h0 : v ≠ 0) (hv : Holdable v) (ho : |v| < double.overflowAt) : ∃ (f : Float) (s₁ s₂ : Bool) (m₁ m₂ : ℚ), Canonical f ∧
    f.low ≠ 0x8000000000000000 ∧ double.decode f.high.toNat = .num s₁ m₁ ∧ double.decode f.low.toNat = .num s₂ m₂ ∧
    signed s₁ m₁ + signed s₂ m₂ = v := by
  obtain ⟨k, e, hk, he, hke⟩ := id hv
  have hk0 : k ≠ 0 := by rintro rfl; rw [Int.cast_zero, zero_mul] at hke; exact h0 hke
  have hn0 : 0 < k.natAbs := Int.natAbs_pos.2 hk0
  have hn : k.natAbs < 2 ^ 106 := by
    have : (k.natAbs : ℤ) < 2 ^ 106 := by rw [Int.natCast_natAbs]; exact hk
    exact_mod_cast this
  have habs : |v| = k.natAbs * (2 : ℚ) ^ e := by
    rw [hke, abs_mul, abs_of_pos (zpow_pos (by norm_num : (0 : ℚ) < 2) e), Nat.cast_natAbs, Int.cast_abs]
  have he2 : e < 1024 := by
    have h1 : (2 : ℚ) ^ e ≤ |v| := by
      rw [habs]
      refine le_mul_of_one_le_left (zpow_pos (by norm_num) _).le ?_
      exact_mod_cast hn0
    exact (zpow_lt_zpow_iff_right₀ (by norm_num : (1 : ℚ) < 2)).1 (lt_of_le_of_lt h1 (ho.trans_le overflow_le))
  have hL := bitLen_le_of_lt hn
  let x : BigFloat := ⟨106, .toNearestEven, .exact, .finite, decide (v < 0), k.natAbs, e + bitLen k.natAbs⟩
  have hf : x.form = .finite := rfl
  have hx : x.WF := by
    refine ⟨by show 106 ≤ BigFloat.MaxPrec; decide, fun _ => hn0, fun _ => ?_, fun _ => ?_, fun _ => by show 1 ≤ 106; norm_num,
      fun _ => ⟨k.natAbs, 0, by show k.natAbs = _; rw [pow_zero, mul_one], hn⟩⟩
    · show BigFloat.MinExp ≤ e + bitLen k.natAbs
      unfold BigFloat.MinExp
      omega
    · show e + bitLen k.natAbs ≤ BigFloat.MaxExp
      unfold BigFloat.MaxExp
      omega
  have hmag : x.mag = |v| := by
    show (k.natAbs : ℚ) / 2 ^ bitLen k.natAbs * (2 : ℚ) ^ (e + bitLen k.natAbs) = _
    rw [habs, zpow_add₀ (by norm_num), zpow_natCast, mul_comm ((2 : ℚ) ^ e), ← mul_assoc, div_mul_cancel₀ _ (by positivity)]
  have hneg : x.neg = decide (v < 0) := rfl
  have hsv : x.sval = v := by
    rw [BigFloat.sval_finite hf, hmag, hneg]
    unfold signed
    rcases lt_or_ge v 0 with h | h
    · simp [h, abs_of_neg h]
    · simp [not_lt.2 h, abs_of_nonneg h]
  clear_value x
  obtain ⟨v', w1, -, w2⟩ := newFromBig_mode hx hf
  rw [hsv] at w1
  obtain rfl := RoundsToBitsIn.unique (by norm_num) h0 w1 (roundsToBitsIn_self ⟨k, e, hk, hke⟩)
  obtain ⟨high, low, rh, y, c1, -, -, c3, c4, c5, c6, c7, -⟩ := w2 ho
  obtain ⟨-, s₁, m₁, s₂, m₂, d1, d2, d3⟩ := C99_exact x hx hf c1
  rw [hsv] at d3
  have hsum := d3.2 hv
  have d1' : double.decode high.toNat = .num s₁ m₁ := d1
  have d2' : double.decode low.toNat = .num s₂ m₂ := d2
  rw [c3] at d1'
  injection d1' with e1 e2
  subst e1 e2
  refine ⟨⟨high, low⟩, _, s₂, _, m₂, ⟨_, _, s₂, m₂, d1, d2, fun hc => absurd (hsum ▸ hc) h0, fun _ => ?_, k, e, hk, hsum.trans hke⟩, ?_, d1, d2, hsum⟩
  · rw [hsum, ← hneg]; exact c5
  · intro hc
    have hc : low = 0x8000000000000000 := hc
    have h2 : double.decode low.toNat = .num true 0 := by
      rw [hc]; exact (roundsTo_zero double (by decide) true).1
    rw [d2'] at h2
    injection h2 with _ h2
    have h3 : v' - signed x.neg rh = 0 := by rw [← hsum, h2]; unfold signed; split <;> simp
    rw [c6 h3] at hc
    exact absurd hc (by decide)

theorem overflow_eq : double.overflowAt = 2 ^ (1024 : ℤ) - 2 ^ (970 : ℤ) := by
  obtain ⟨-, d2, d3, -⟩ := double_facts
  unfold Format.overflowAt
  rw [d2, d3, show (1024 : ℤ) = 970 + 54 by norm_num, show (1023 : ℤ) = 970 + 53 by norm_num, zpow_add₀ (by norm_num), zpow_add₀ (by norm_num)]
  generalize (2 : ℚ) ^ (970 : ℤ) = P
  norm_num
  ring

theorem low_unique {x y : F64} {s t : Bool} {m n : ℚ} (hx : x ≠ 0x8000000000000000) (hy : y ≠ 0x8000000000000000)
    (h1 : double.decode x.toNat = .num s m) (h2 : double.decode y.toNat = .num t n) (h : signed s m = signed t n) : x = y := by
  have hz : ∀ {z : F64} {s : Bool}, z ≠ 0x8000000000000000 → double.decode z.toNat = .num s 0 → z = 0 := by
    intro z s hz hd
    cases s
    · exact decode_inj64 (hd.trans double_zero.symm) (by rw [hd]; simp)
    · have h8 : double.decode (0x8000000000000000 : F64).toNat = .num true 0 := (roundsTo_zero double (by decide) true).1
      exact absurd (decode_inj64 (hd.trans h8.symm) (by rw [hd]; simp)) hz
  have pos : ∀ {z : F64} {s : Bool} {m : ℚ}, double.decode z.toNat = .num s m → 0 ≤ m := by
    intro z s m hd
    obtain ⟨N, e1, -⟩ := double_multiple hd
    rw [e1]; exact mul_nonneg (Nat.cast_nonneg _) (zpow_pos (by norm_num) _).le
  have hmn : m = n := by
    have := congrArg abs h
    rwa [BigFloat.signed_abs (pos h1), BigFloat.signed_abs (pos h2)] at this
  subst hmn
  by_cases h0 : m = 0
  · subst h0
    rw [hz hx h1, hz hy h2]
  · have hst : s = t := by
      cases s <;> cases t <;> simp [signed] at h ⊢
      · exact h0 (by linarith)
      · exact h0 (by linarith)
    subst hst
    exact decode_inj64 (h1.trans h2.symm) (by rw [h1]; simp)

/-- C99: a number other than zero is the sum of a canonical pair (the ones `Big` and `NewFromBig` carry, C62) exactly if it is a multiple
of 2^-1074 with at most 106 significant bits and less than 2^1024 - 2^970; the pair is unique. -/
theorem C99_values {v : ℚ} (h0 : v ≠ 0) : (∃! f : Float, Canonical f ∧ f.low ≠ 0x8000000000000000 ∧
    ∃ (s₁ s₂ : Bool) (m₁ m₂ : ℚ), double.decode f.high.toNat = .num s₁ m₁ ∧ double.decode f.low.toNat = .num s₂ m₂ ∧ signed s₁ m₁ + signed s₂ m₂ = v) ↔
    Holdable v ∧ |v| < 2 ^ (1024 : ℤ) - 2 ^ (970 : ℤ) := by
  rw [← overflow_eq]
  constructor
  · rintro ⟨f, ⟨⟨s₁, m₁, s₂, m₂, h1, h2, -, hr, k, e, hk, hv⟩, -, s₁', s₂', m₁', m₂', h1', h2', hsum⟩, -⟩
    rw [h1] at h1'
    rw [h2] at h2'
    injection h1' with a1 a2
    injection h2' with a3 a4
    subst a1 a2 a3 a4
    have hh := holdable_sum h1 h2 hk hv
    have hr := hr (by rw [hsum]; exact h0)
    rw [hsum] at hh hr
    refine ⟨hh, ?_⟩
    by_contra hc
    unfold Format.RoundsTo at hr
    rw [if_pos (not_lt.1 hc), h1] at hr
    cases hr
  · rintro ⟨hv, ho⟩
    obtain ⟨f, s₁, s₂, m₁, m₂, h1, h2, h3, h4, h5⟩ := exists_pair h0 hv ho
    refine ⟨f, ⟨h1, h2, s₁, s₂, m₁, m₂, h3, h4, h5⟩, ?_⟩
    rintro g ⟨⟨t₁, n₁, t₂, n₂, g1, g2, -, hr', -⟩, hl', t₁', t₂', n₁', n₂', g1', g2', hsum⟩
    rw [g1] at g1'
    rw [g2] at g2'
    injection g1' with a1 a2
    injection g2' with a3 a4
    subst a1 a2 a3 a4
    obtain ⟨s₁', m₁', s₂', m₂', h3', h4', -, hr, -⟩ := h1
    rw [h3] at h3'
    rw [h4] at h4'
    injection h3' with a1 a2
    injection h4' with a3 a4
    subst a1 a2 a3 a4
    have hr := hr (by rw [h5]; exact h0)
    have hr' := hr' (by rw [hsum]; exact h0)
    rw [h5] at hr
    rw [hsum] at hr'
    have hd := RoundsTo.unique (by decide) hr' hr
    have e1 : g.high = f.high := decode_inj64 hd (by rw [g1]; simp)
    rw [g1, h3] at hd
    injection hd with a1 a2
    subst a1 a2
    have e2 : signed t₂ n₂ = signed s₂ m₂ := by linarith
    have e3 : g.low = f.low := low_unique hl' h2 g2 h4 e2
    cases f
    cases g
    simp only at e1 e3
    rw [e1, e3]

/-- A number of 106 bits is a multiple of its unit. -/
theorem holdable_unit {v : ℚ} (h : Holdable v) {q : ℤ} (hq : (2 : ℚ) ^ q ≤ |v|) : ∃ K : ℤ, v = K * (2 : ℚ) ^ max (q - 105) (-1074) := by
  obtain ⟨k, e, hk, he, rfl⟩ := h
  have h1 : q - 105 ≤ e := by
    by_contra hc
    have h2 : |(k : ℚ) * (2 : ℚ) ^ e| < 2 ^ 106 * (2 : ℚ) ^ e := by
      rw [abs_mul, abs_of_pos (zpow_pos (by norm_num : (0 : ℚ) < 2) _)]
      refine mul_lt_mul_of_pos_right ?_ (zpow_pos (by norm_num) _)
      exact_mod_cast hk
    have h3 : (2 : ℚ) ^ 106 * (2 : ℚ) ^ e = (2 : ℚ) ^ (106 + e) := by rw [zpow_add₀ (by norm_num)]; norm_num
    rw [h3] at h2
    have h4 := (zpow_lt_zpow_iff_right₀ (by norm_num : (1 : ℚ) < 2)).1 (lt_of_le_of_lt hq h2)
    omega
  obtain ⟨j, hj⟩ : ∃ j : ℕ, e = max (q - 105) (-1074) + j := ⟨(e - max (q - 105) (-1074)).toNat, by omega⟩
  refine ⟨k * 2 ^ j, ?_⟩
  generalize max (q - 105) (-1074) = a at *
  rw [hj, zpow_add₀ (by norm_num), zpow_natCast, Int.cast_mul, Int.cast_pow, Int.cast_ofNat, mul_comm ((2 : ℚ) ^ a), mul_assoc]

/-- C99: the positive numbers that a double-double can hold follow each other at distances of 2^(q-105) from 2^q to 2^(q+1), and of 2^-1074
at least: with `v`, `v` plus that distance can be held, and none between. -/
theorem C99_next {v : ℚ} {q : ℤ} (hv : Holdable v) (h1 : (2 : ℚ) ^ q ≤ v) (h2 : v < (2 : ℚ) ^ (q + 1)) :
    Holdable (v + 2 ^ max (q - 105) (-1074)) ∧ ∀ w, Holdable w → v < w → v + 2 ^ max (q - 105) (-1074) ≤ w := by
  have hq0 : (0 : ℚ) < (2 : ℚ) ^ q := zpow_pos (by norm_num) _
  have hv0 : 0 < v := lt_of_lt_of_le hq0 h1
  obtain ⟨K, hK⟩ := holdable_unit hv (q := q) (by rw [abs_of_pos hv0]; exact h1)
  have hu : (0 : ℚ) < (2 : ℚ) ^ max (q - 105) (-1074) := zpow_pos (by norm_num) _
  have hK0 : 0 < K := by
    rw [hK] at hv0
    exact_mod_cast pos_of_mul_pos_left hv0 hu.le
  constructor
  · have hK1 : K < 2 ^ 106 := by
      have h3 : (2 : ℚ) ^ (q + 1) ≤ 2 ^ 106 * (2 : ℚ) ^ max (q - 105) (-1074) := by
        rw [← zpow_natCast, ← zpow_add₀ (by norm_num)]
        exact zpow_le_zpow_right₀ (by norm_num) (by push_cast; omega)
      rw [hK] at h2
      have h4 := lt_of_mul_lt_mul_right (h2.trans_le h3) hu.le
      exact_mod_cast h4
    have hsum : v + (2 : ℚ) ^ max (q - 105) (-1074) = ((K + 1 : ℤ) : ℚ) * (2 : ℚ) ^ max (q - 105) (-1074) := by
      rw [hK]; push_cast; ring
    rw [hsum]
    by_cases hc : K + 1 < 2 ^ 106
    · exact ⟨K + 1, _, by rw [abs_of_pos (by omega)]; exact hc, le_max_right _ _, rfl⟩
    · have hK2 : K + 1 = 2 ^ 106 := by omega
      refine ⟨1, max (q - 105) (-1074) + 106, by norm_num, by omega, ?_⟩
      rw [hK2, zpow_add₀ (by norm_num)]
      push_cast
      rw [one_mul, mul_comm]
  · intro w hw hlt
    obtain ⟨J, hJ⟩ := holdable_unit hw (q := q) (by rw [abs_of_pos (hv0.trans hlt)]; exact h1.trans hlt.le)
    rw [hK, hJ] at hlt
    have h5 : (K : ℚ) < J := lt_of_mul_lt_mul_right hlt hu.le
    have h6 : K + 1 ≤ J := by exact_mod_cast h5
    have h7 : ((K : ℚ) + 1) ≤ J := by exact_mod_cast h6
    rw [hK, hJ]
    calc (K : ℚ) * _ + _ = (K + 1) * (2 : ℚ) ^ max (q - 105) (-1074) := by ring
      _ ≤ _ := mul_le_mul_of_nonneg_right h7 hu.le

/-- C99: the largest number that a double-double can hold is 2^1024 - 2^970 - 2^918, the pair `(0x7FEFFFFFFFFFFFFF, 0x7C8FFFFFFFFFFFFE)`. -/
theorem C99_largest : (∀ v, Holdable v → |v| < 2 ^ (1024 : ℤ) - 2 ^ (970 : ℤ) → |v| ≤ 2 ^ (1024 : ℤ) - 2 ^ (970 : ℤ) - 2 ^ (918 : ℤ)) ∧
    Holdable (2 ^ (1024 : ℤ) - 2 ^ (970 : ℤ) - 2 ^ (918 : ℤ)) ∧
    double.decode (0x7FEFFFFFFFFFFFFF : F64).toNat = .num false (2 ^ (1024 : ℤ) - 2 ^ (971 : ℤ)) ∧
    double.decode (0x7C8FFFFFFFFFFFFE : F64).toNat = .num false (2 ^ (970 : ℤ) - 2 ^ (918 : ℤ)) := by
  have u0 : (0 : ℚ) < (2 : ℚ) ^ (918 : ℤ) := zpow_pos (by norm_num) _
  have e1 : (2 : ℚ) ^ (1024 : ℤ) = 2 ^ 106 * (2 : ℚ) ^ (918 : ℤ) := by
    rw [show (1024 : ℤ) = (106 : ℕ) + 918 by norm_num, zpow_add₀ (by norm_num), zpow_natCast]
  have e2 : (2 : ℚ) ^ (970 : ℤ) = 2 ^ 52 * (2 : ℚ) ^ (918 : ℤ) := by
    rw [show (970 : ℤ) = (52 : ℕ) + 918 by norm_num, zpow_add₀ (by norm_num), zpow_natCast]
  have e3 : (2 : ℚ) ^ (971 : ℤ) = 2 ^ 53 * (2 : ℚ) ^ (918 : ℤ) := by
    rw [show (971 : ℤ) = (53 : ℕ) + 918 by norm_num, zpow_add₀ (by norm_num), zpow_natCast]
  have e4 : (2 : ℚ) ^ (1023 : ℤ) = 2 ^ 105 * (2 : ℚ) ^ (918 : ℤ) := by
    rw [show (1023 : ℤ) = (105 : ℕ) + 918 by norm_num, zpow_add₀ (by norm_num), zpow_natCast]
  refine ⟨?_, ?_, ?_, ?_⟩
  · intro v hv hlt
    rcases lt_or_ge |v| ((2 : ℚ) ^ (1023 : ℤ)) with h | h
    · rw [e4] at h
      rw [e1, e2]
      clear e1 e2 e3 e4 hlt
      generalize (2 : ℚ) ^ (918 : ℤ) = u at *
      norm_num at h ⊢
      linarith
    · obtain ⟨K, hK⟩ := holdable_unit hv h
      rw [show max ((1023 : ℤ) - 105) (-1074) = 918 by norm_num] at hK
      rw [hK, abs_mul, abs_of_pos u0, e1, e2] at hlt ⊢
      have h1 : |(K : ℚ)| < 2 ^ 106 - 2 ^ 52 := by
        refine lt_of_mul_lt_mul_right (a := (2 : ℚ) ^ (918 : ℤ)) ?_ u0.le
        rw [sub_mul]
        exact hlt
      have h2 : |K| < 2 ^ 106 - 2 ^ 52 := by exact_mod_cast h1
      have h3 : |K| ≤ 2 ^ 106 - 2 ^ 52 - 1 := by omega
      have h4 : |(K : ℚ)| ≤ 2 ^ 106 - 2 ^ 52 - 1 := by exact_mod_cast h3
      calc |(K : ℚ)| * (2 : ℚ) ^ (918 : ℤ) ≤ (2 ^ 106 - 2 ^ 52 - 1) * (2 : ℚ) ^ (918 : ℤ) := mul_le_mul_of_nonneg_right h4 u0.le
        _ = _ := by ring
  · refine ⟨2 ^ 106 - 2 ^ 52 - 1, 918, by norm_num, by norm_num, ?_⟩
    rw [e1, e2]
    generalize (2 : ℚ) ^ (918 : ℤ) = u
    push_cast
    ring
  · have h := double.decode_code false (n := 0x7FEFFFFFFFFFFFFF) (by decide)
    have h2 := double.magc_eq (k := 2045) (N := 2 ^ 53 - 1) (by decide) (Or.inr (by decide))
    rw [show double.signPart false + 0x7FEFFFFFFFFFFFFF = (0x7FEFFFFFFFFFFFFF : F64).toNat by decide] at h
    rw [h, show 0x7FEFFFFFFFFFFFFF = 2045 * 2 ^ double.t + (2 ^ 53 - 1) by decide, h2, double_facts.1, e1, e3,
      show (-1074 : ℤ) + (2045 : ℕ) = 53 + 918 by norm_num, zpow_add₀ (by norm_num)]
    rw [Datum.num.injEq]
    refine ⟨rfl, ?_⟩
    generalize (2 : ℚ) ^ (918 : ℤ) = u
    norm_num
    ring
  · have h := double.decode_code false (n := 0x7C8FFFFFFFFFFFFE) (by decide)
    have h2 := double.magc_eq (k := 1991) (N := 2 ^ 53 - 2) (by decide) (Or.inr (by decide))
    rw [show double.signPart false + 0x7C8FFFFFFFFFFFFE = (0x7C8FFFFFFFFFFFFE : F64).toNat by decide] at h
    rw [h, show 0x7C8FFFFFFFFFFFFE = 1991 * 2 ^ double.t + (2 ^ 53 - 2) by decide, h2, double_facts.1, e2,
      show (-1074 : ℤ) + (1991 : ℕ) = -1 + 918 by norm_num, zpow_add₀ (by norm_num)]
    rw [Datum.num.injEq]
    refine ⟨rfl, ?_⟩
    generalize (2 : ℚ) ^ (918 : ℤ) = u
    norm_num
    ring

-- 1 + 2^-105 can be held, 1 + 2^-106 and 2^-1075 cannot
example : Holdable (1 + 2 ^ (-105 : ℤ)) := ⟨2 ^ 105 + 1, -105, by norm_num, by norm_num, by norm_num⟩
example : ¬ Holdable (1 + 2 ^ (-106 : ℤ)) := by
  intro h
  obtain ⟨K, hK⟩ := holdable_unit h (q := 0) (by norm_num)
  norm_num at hK
  have : ((81129638414606681695789005144065 : ℤ) : ℚ) = ((2 * K : ℤ) : ℚ) := by push_cast; linarith
  have := Int.cast_injective this
  omega
-- the number after 1, and the hypotheses of `C99_next`
example : Holdable 1 ∧ (2 : ℚ) ^ (0 : ℤ) ≤ 1 ∧ (1 : ℚ) < 2 ^ ((0 : ℤ) + 1) := ⟨⟨1, 0, by norm_num, by norm_num, by norm_num⟩, by norm_num, by norm_num⟩
-- `NewFromBig` returns for 1 + 2^-200, as the hypothesis of `C99_exact` wants
example : (onePlus .toNearestEven).WF ∧ (onePlus .toNearestEven).form = .finite ∧ ∃ f x', newFromBig (onePlus .toNearestEven) = .ok ((f, .exact), x') :=
  ⟨onePlus_wf _, rfl, ⟨0x3FF0000000000000, 0⟩, ⟨106, .toNearestEven, .exact, .finite, false, 2 ^ 105, 1⟩, by decide +kernel⟩

end GoFloat.Float128ppc
