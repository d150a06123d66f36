import Verif.Props.Float128ppc
/-
C62: exactly which pairs of doubles survive `Big` and `NewFromBig`.
-/
namespace GoFloat.Float128ppc
open Spec

/-- `f` survives the trip through `big.Float`: `Big` and `NewFromBig` return, and give `f` back bit for bit. -/
def Survives (f : Float) : Prop := ∃ x nan acc x', f.big = .ok (x, nan) ∧ newFromBig x = .ok ((f, acc), x')

theorem prepared_of_rounded {x : BigFloat} {v : ℚ} (hr : BigFloat.RoundedTo big0 v x) : prepared x = { x with acc := .exact } := by
  have hprec : x.prec = 106 := hr.1
  have hmo : x.mode = .toNearestEven := hr.2.1
  unfold prepared precision
  rw [BigFloat.setPrec_widen (by norm_num) (by decide) hprec.le]
  unfold BigFloat.setMode
  rw [← hprec, ← hmo]

theorem sum_multiple {s₁ s₂ : Bool} {m₁ m₂ : ℚ} {c₁ c₂ : ℕ} (h1 : double.decode c₁ = .num s₁ m₁) (h2 : double.decode c₂ = .num s₂ m₂) :
    ∃ K : ℤ, signed s₁ m₁ + signed s₂ m₂ = K * (2 : ℚ) ^ (-1074 : ℤ) := by
  obtain ⟨N1, e1, -⟩ := double_multiple h1
  obtain ⟨N2, e2, -⟩ := double_multiple h2
  refine ⟨(if s₁ then -(N1 : ℤ) else N1) + (if s₂ then -(N2 : ℤ) else N2), ?_⟩
  rw [e1, e2]
  generalize (2 : ℚ) ^ (-1074 : ℤ) = u
  cases s₁ <;> cases s₂ <;> simp [signed] <;> ring

theorem canonical_of_survives {f : Float} {s₁ s₂ : Bool} {m₁ m₂ : ℚ} (h1 : double.decode f.high.toNat = .num s₁ m₁)
    (h2 : double.decode f.low.toNat = .num s₂ m₂) (h : Survives f) : Canonical f ∧ f.low ≠ 0x8000000000000000 := by
  obtain ⟨x, nan, acc, x', hb, hn⟩ := h
  obtain ⟨y, hb', e2, e3⟩ := big_finite h1 h2
  rw [hb'] at hb
  simp only [Except.ok.injEq, Prod.mk.injEq] at hb
  obtain ⟨rfl, -⟩ := hb
  have hzero : double.decode (0 : F64).toNat = .num false 0 := (roundsTo_zero double (by decide) false).1
  have hnzero : double.decode F64.negZero.toNat = .num true 0 := (roundsTo_zero double (by decide) true).1
  by_cases h0 : signed s₁ m₁ + signed s₂ m₂ = 0
  · obtain ⟨f1, n1, -⟩ := e2 h0
    rw [newFromBig_zero f1, n1] at hn
    simp only [Except.ok.injEq, Prod.mk.injEq] at hn
    obtain ⟨⟨hf, -⟩, -⟩ := hn
    have hm1 : m₁ = 0 ∧ f.low ≠ 0x8000000000000000 := by
      rw [← hf] at h1 ⊢
      cases s₁
      · have : double.decode (0 : F64).toNat = .num false m₁ := h1
        rw [hzero] at this
        injection this with _ h
        exact ⟨h.symm, by decide⟩
      · have : double.decode F64.negZero.toNat = .num true m₁ := h1
        rw [hnzero] at this
        injection this with _ h
        exact ⟨h.symm, by decide⟩
    exact ⟨⟨s₁, m₁, s₂, m₂, h1, h2, fun _ => hm1.1, fun h => absurd h0 h, 0, 0, by norm_num, by rw [h0]; norm_num⟩, hm1.2⟩
  · have hr := e3 h0
    have hf := hr.2.2.2.1
    have hwf := hr.2.2.1
    have hneg := hr.2.2.2.2.1
    have hprep := prepared_of_rounded hr
    have hxm := BigFloat.mag_pos (hwf.mant_pos hf)
    have hsvx := BigFloat.sval_finite hf
    have habs : |y.sval| = y.mag := by rw [hsvx, BigFloat.signed_abs hxm.le]
    have hpf : (prepared y).form = .finite := by rw [hprep]; exact hf
    have hno : ¬ double.overflowAt ≤ (prepared y).mag := by
      intro hc
      rw [newFromBig_panic hwf hf (Or.inr ⟨hpf, hc⟩)] at hn
      exact absurd hn (by simp)
    have hpw : (prepared y).WF := by
      rw [hprep]; exact ⟨hwf.prec_le, hwf.mant_pos, hwf.exp_ge, hwf.exp_le, hwf.prec_pos, hwf.fits⟩
    obtain ⟨high, low, rh, t1, t2, t3, t4, t5, t6, -⟩ := split_spec hpw hpf (by rw [hprep]; exact hr.1) hno
    have b1 : (prepared y).neg = y.neg := by rw [hprep]
    have b2 : (prepared y).mag = y.mag := by rw [hprep]; rfl
    have b3 : (prepared y).sval = y.sval := by rw [hprep]; rfl
    have b4 : (prepared y).exp = y.exp := by rw [hprep]
    rw [b1] at t2 t3 t4 t5 t6
    rw [b2] at t3
    rw [b3] at t4 t5 t6
    rw [b4] at t6
    rw [newFromBig_finite_eq hf] at hn
    change split (prepared y) = _ at hn
    rw [t1] at hn
    simp only [Except.ok.injEq, Prod.mk.injEq] at hn
    obtain ⟨⟨rfl, -⟩, -⟩ := hn
    simp only at h1 h2 ⊢
    rw [h1] at t2
    injection t2 with u1 u2
    rw [← u1, ← u2] at t4 t5 t6
    -- the sum has at most 106 bits
    have hfit : ∃ k e : ℤ, |k| < 2 ^ 106 ∧ signed s₁ m₁ + signed s₂ m₂ = k * (2 : ℚ) ^ e := by
      obtain ⟨K, hK⟩ := sum_multiple h1 h2
      by_cases hc : |K| < 2 ^ 106
      · exact ⟨K, -1074, hc, hK⟩
      · have hbig : (2 : ℚ) ^ (-968 : ℤ) ≤ |signed s₁ m₁ + signed s₂ m₂| := by
          rw [hK, abs_mul, abs_of_pos (by positivity : (0 : ℚ) < 2 ^ (-1074 : ℤ)), show (-968 : ℤ) = (106 : ℕ) + (-1074) by norm_num,
            zpow_add₀ (by norm_num), zpow_natCast]
          refine mul_le_mul_of_nonneg_right ?_ (by positivity)
          exact_mod_cast not_lt.1 hc
        obtain ⟨E, r1, r2, -, r4, -⟩ := hr.2.2.2.2.2
        have hE : -968 < E := by
          by_contra hcE
          have := zpow_le_zpow_right₀ (a := (2 : ℚ)) (by norm_num) (not_lt.1 hcE)
          linarith
        obtain ⟨s, m, q1, q2⟩ := t6 (by omega)
        rw [h2] at q1
        injection q1 with v1 v2
        rw [← v1, ← v2] at q2
        have hv : signed s₁ m₁ + signed s₂ m₂ = y.sval := by rw [q2]; ring
        obtain ⟨k, e, hk, hke⟩ := (hr.spec (by decide)).1
        exact ⟨k, e, hk, by rw [hv]; exact hke⟩
    obtain ⟨k, e, hk, hke⟩ := hfit
    obtain ⟨hsv, -⟩ := hr.exact (by decide) hk hke
    refine ⟨⟨s₁, m₁, s₂, m₂, h1, h2, fun h => absurd h h0, fun _ => ?_, k, e, hk, hke⟩, ?_⟩
    · rw [← hneg, ← hsv, habs]; exact t3
    · intro hc
      have hc : low = F64.negZero := hc
      rw [hc, hnzero] at h2
      injection h2 with w1 w2
      have hz : y.sval - signed s₁ m₁ = 0 := by
        rw [hsv, ← w2]; cases s₂ <;> simp [signed]
      rw [t4 hz] at hc
      exact absurd hc (by decide)

/-- C62: a pair of doubles survives the trip through `big.Float` exactly if it is `Inf`, or a canonical pair of finite doubles
(`high` nearest to `high + low`, whose sum has at most 106 bits) in which `low` is not `-0`. -/
theorem C62_float128ppc_survives (f : Float) :
    Survives f ↔ (Canonical f ∧ f.low ≠ 0x8000000000000000) ∨ f = newFromBits 0x7FF0000000000000 0 := by
  constructor
  · intro h
    cases hn1 : F64.isNaN f.high with
    | true =>
      exfalso
      obtain ⟨x, nan, acc, x', hb, hn⟩ := h
      have : f.isNaN = true := by unfold Float.isNaN; rw [hn1]; rfl
      rw [big_nan this] at hb
      simp only [Except.ok.injEq, Prod.mk.injEq] at hb
      obtain ⟨rfl, -⟩ := hb
      rw [newFromBig_zero rfl] at hn
      simp only [Except.ok.injEq, Prod.mk.injEq] at hn
      rw [← hn.1.1] at hn1
      exact absurd hn1 (by decide)
    | false =>
    cases hn2 : F64.isNaN f.low with
    | true =>
      exfalso
      obtain ⟨x, nan, acc, x', hb, hn⟩ := h
      have : f.isNaN = true := by unfold Float.isNaN; rw [hn2]; simp
      rw [big_nan this] at hb
      simp only [Except.ok.injEq, Prod.mk.injEq] at hb
      obtain ⟨rfl, -⟩ := hb
      rw [newFromBig_zero rfl] at hn
      simp only [Except.ok.injEq, Prod.mk.injEq] at hn
      rw [← hn.1.1] at hn2
      exact absurd hn2 (by decide)
    | false =>
    have hinf : ∀ s, (double.decode f.high.toNat = .inf s ∨ double.decode f.low.toNat = .inf s) → f = newFromBits 0x7FF0000000000000 0 := by
      intro s hs
      obtain ⟨g1, g2⟩ := big_infinite hn1 hn2 hs
      obtain ⟨x, nan, acc, x', hb, hn⟩ := h
      by_cases hc : double.decode f.high.toNat = .inf (!s) ∨ double.decode f.low.toNat = .inf (!s)
      · rw [g2 hc] at hb; exact absurd hb (by simp)
      · push Not at hc
        obtain ⟨y, hy, hd, -⟩ := g1 hc.1 hc.2
        rw [hy] at hb
        simp only [Except.ok.injEq, Prod.mk.injEq] at hb
        obtain ⟨rfl, -⟩ := hb
        have hform : y.form = .inf := by
          unfold BigFloat.datum at hd
          cases hfm : y.form <;> rw [hfm] at hd <;> simp at hd ⊢
        rw [newFromBig_inf hform] at hn
        simp only [Except.ok.injEq, Prod.mk.injEq] at hn
        rw [← hn.1.1]
        cases y.neg <;> decide
    cases h1 : double.decode f.high.toNat with
    | nan s =>
      exact absurd hn1 (by rw [(isNaN64_iff f.high).2 ⟨s, h1⟩]; simp)
    | inf s => exact Or.inr (hinf s (Or.inl h1))
    | num s₁ m₁ =>
      cases h2 : double.decode f.low.toNat with
      | nan s => exact absurd hn2 (by rw [(isNaN64_iff f.low).2 ⟨s, h2⟩]; simp)
      | inf s => exact Or.inr (hinf s (Or.inr h2))
      | num s₂ m₂ => exact Or.inl (canonical_of_survives h1 h2 h)
  · rintro (⟨h, hl⟩ | h)
    · obtain ⟨x, x', h1, h2⟩ := C32_partial f h
      rw [if_neg hl] at h2
      exact ⟨x, false, .exact, x', h1, h2⟩
    · rw [h]
      exact ⟨⟨106, .toNearestEven, .exact, .inf, false, 0, 0⟩, false, .exact, ⟨106, .toNearestEven, .exact, .inf, false, 0, 0⟩,
        by decide +kernel, by decide +kernel⟩

-- 1 + 2^-60 survives
example : Survives (newFromBits 0x3FF0000000000000 0x3C30000000000000) :=
  ⟨⟨106, .toNearestEven, .exact, .finite, false, 2 ^ 105 + 2 ^ 45, 1⟩, false, .exact,
   ⟨106, .toNearestEven, .exact, .finite, false, 2 ^ 105 + 2 ^ 45, 1⟩, by decide +kernel, by decide +kernel⟩

/-- C62, a row of the test table of the package (float128ppc_test.go:16), which does not survive: the sum has 1048 bits. -/
theorem C62_float128ppc_test_row : ¬ Survives (newFromBits 0x400C000000000030 0x0000000010000000) := by
  rintro ⟨x, nan, acc, x', h1, h2⟩
  have e1 : (newFromBits 0x400C000000000030 0x0000000010000000).big =
      .ok (⟨106, .toNearestEven, .below, .finite, false, 70988433612781278829379607068672, 2⟩, false) := by decide +kernel
  rw [e1] at h1
  simp only [Except.ok.injEq, Prod.mk.injEq] at h1
  rw [← h1.1] at h2
  have e2 : newFromBig ⟨106, .toNearestEven, .below, .finite, false, 70988433612781278829379607068672, 2⟩ =
      .ok ((newFromBits 0x400C000000000030 0, .exact),
        ⟨106, .toNearestEven, .exact, .finite, false, 70988433612781278829379607068672, 2⟩) := by decide +kernel
  rw [e2] at h2
  simp only [Except.ok.injEq, Prod.mk.injEq] at h2
  exact absurd h2.1.1 (by decide)

end GoFloat.Float128ppc
