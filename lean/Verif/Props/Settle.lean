import Verif.Proofs.Sample
import Verif.Props.Value
import Verif.Props.Float128ppcOrder
/-
C94: converting a second time. What `NewFromBig` returned is converted to `big.Float` and back: does the same pattern come out?
-/
namespace GoFloat
open Spec

namespace Binary16

/-- The pattern comes back bit for bit, reported as exact. -/
def Settled (f : Float) : Prop := ∃ y, f.big = .ok (y, false) ∧ newFromBig y = .ok (f, .exact)

/-- C94, binary16: a second conversion changes nothing exactly if the first did not end in a NaN. -/
theorem C94_binary16 (x : BigFloat) (hx : x.WF) {s : Bool} {m : ℚ} {e : ℤ} (hd : x.datum = .num s m)
    (h1 : (2 : ℚ) ^ (e - 1) ≤ m) (h2 : m < (2 : ℚ) ^ e) :
    ∃ f acc, newFromBig x = .ok (f, acc) ∧
      (Settled f ↔ ¬ (17 ≤ e ∧ (e - 17) % 2 ^ 5 = 0 ∧ (2 : ℚ) ^ (e - 1) * (1 + 1 / 2 ^ 10) ≤ m)) := by
  obtain ⟨f, acc, hr, hn⟩ := C66_binary16_nan x hx hd h1 h2
  refine ⟨f, acc, hr, ?_⟩
  rw [← hn]
  constructor
  · rintro ⟨y, hy, -⟩ ⟨s', hs⟩
    obtain ⟨z, nan, hz, -, -, -, -, hdec⟩ := C02_binary16_big f
    rw [hs] at hdec
    rw [hz, hdec.1] at hy
    simp at hy
  · intro h
    exact C03_binary16_big_roundtrip f fun s' hs => h ⟨s', hs⟩

-- 98304 ends in a NaN, 5/2^23 does not
example : newFromBig ⟨11, .toNearestEven, .exact, .finite, false, 3, 17⟩ = .ok (⟨0x7E00⟩, .exact) ∧
    newFromBig ⟨53, .toNearestEven, .exact, .finite, false, 5, -20⟩ = .ok (⟨0x000A⟩, .exact) := by decide +kernel

end Binary16

namespace Binary128

/-- The pattern comes back bit for bit, reported as exact. -/
def Settled (f : Float) : Prop := ∃ y, f.big = .ok (y, false) ∧ newFromBig y = .ok (f, .exact)

/-- C94, binary128: a second conversion changes nothing exactly if the first did not end in a NaN. -/
theorem C94_binary128 (x : BigFloat) (hx : x.WF) {s : Bool} {m : ℚ} {e : ℤ} (hd : x.datum = .num s m)
    (h1 : (2 : ℚ) ^ (e - 1) ≤ m) (h2 : m < (2 : ℚ) ^ e) :
    ∃ f acc, newFromBig x = .ok (f, acc) ∧
      (Settled f ↔ ¬ (16385 ≤ e ∧ (e - 16385) % 2 ^ 15 = 0 ∧ (2 : ℚ) ^ (e - 1) * (1 + 1 / 2 ^ 112) ≤ m)) := by
  obtain ⟨f, acc, hr, hn⟩ := C66_binary128_nan x hx hd h1 h2
  refine ⟨f, acc, hr, ?_⟩
  rw [← hn]
  constructor
  · rintro ⟨y, hy, -⟩ ⟨s', hs⟩
    obtain ⟨z, nan, hz, -, -, -, -, hdec⟩ := C14_binary128_big f
    rw [hs] at hdec
    rw [hz, hdec.1] at hy
    simp at hy
  · intro h
    exact C15_binary128_big_roundtrip f fun s' hs => h ⟨s', hs⟩

example := C94_binary128 Sample.y Sample.y_wf Sample.y_datum (e := 1) (by norm_num) (by norm_num)

end Binary128

namespace Float80x86

/-- The pattern comes back bit for bit, reported as exact. -/
def Settled (f : Float) : Prop := ∃ y, f.big = .ok (y, false) ∧ newFromBig y = .ok (f, .exact)

/-- A pattern settles exactly if it is canonical and not a NaN. -/
theorem settled_iff (f : Float) : Settled f ↔ f.Canonical ∧ ∀ s, f.val ≠ .nan s := by
  constructor
  · rintro ⟨y, hy, hn⟩
    have hnn : ∀ s, f.val ≠ .nan s := by
      intro s hs
      obtain ⟨z, nan, hz, -, -, -, -, hdec⟩ := C20_float80x86_big f
      rw [hs] at hdec
      rw [hz, hdec.1] at hy
      simp at hy
    obtain ⟨x, g, a1, a2, a3, -⟩ := C21_float80x86_normalises f hnn
    rw [hy] at a1
    simp only [Except.ok.injEq, Prod.mk.injEq, and_true] at a1
    subst a1
    rw [hn] at a2
    simp only [Except.ok.injEq, Prod.mk.injEq, and_true] at a2
    subst a2
    exact ⟨a3, hnn⟩
  · rintro ⟨hc, hn⟩
    exact C21_float80x86_big_roundtrip f hc hn

/-- C94, float80x86: a second conversion changes nothing exactly if the first ended neither in a NaN nor in a pattern with exponent
field 0 and integer bit 1, which happens from `2^16385` on, once in every 32768 binades. -/
theorem C94_float80x86 (x : BigFloat) (hx : x.WF) {s : Bool} {m : ℚ} {e : ℤ} (hd : x.datum = .num s m)
    (h1 : (2 : ℚ) ^ (e - 1) ≤ m) (h2 : m < (2 : ℚ) ^ e) :
    ∃ f acc, newFromBig x = .ok (f, acc) ∧
      (Settled f ↔ ¬ (16385 ≤ e ∧ (e - 16385) % 2 ^ 15 = 0 ∧ (2 : ℚ) ^ (e - 1) * (1 + 1 / 2 ^ 63) ≤ m) ∧
        ¬ (16386 ≤ e ∧ (e - 16386) % 2 ^ 15 = 0)) := by
  obtain ⟨f, acc, hr, hn⟩ := C66_float80x86_nan x hx hd h1 h2
  obtain ⟨f', acc', hr', a1, a2, a3⟩ := C55_float80x86_big x hx hd h1 h2
  rw [hr] at hr'
  simp only [Except.ok.injEq, Prod.mk.injEq] at hr'
  obtain ⟨rfl, rfl⟩ := hr'
  refine ⟨f, acc, hr, ?_⟩
  rw [settled_iff, ← hn, and_comm]
  refine and_congr (by unfold Float.val; push Not; rfl) ?_
  have hm : 0 < m := lt_of_lt_of_le (zpow_pos (by norm_num) _) h1
  unfold Float.Canonical Canonical80
  by_cases c1 : e ≤ -16445
  · obtain ⟨b1, b2, -⟩ := a1 c1
    rw [b2]
    have : f.se.toNat % 2 ^ 15 = 0 := by split_ifs at b1 <;> omega
    constructor
    · intro _; omega
    · intro _; constructor
      · intro h; omega
      · intro h; exact absurd this h
  by_cases c2 : e ≤ -16382
  · obtain ⟨b1, b2, -⟩ := a2 (by omega) c2
    have : f.se.toNat % 2 ^ 15 = 0 := by split_ifs at b1 <;> omega
    have hlt : f.m.toNat < 2 ^ 63 := by
      have h3 : ((f.m.toNat : ℤ) : ℚ) < 2 ^ 63 := by
        rw [b2]
        refine (Int.floor_le _).trans_lt ?_
        have h4 : m < (2 : ℚ) ^ (-16382 : ℤ) := h2.trans_le (zpow_le_zpow_right₀ (by norm_num) c2)
        have h5 : (2 : ℚ) ^ (63 : ℕ) = (2 : ℚ) ^ (-16382 : ℤ) * 2 ^ (16445 : ℤ) := by
          rw [← zpow_add₀ (by norm_num)]; norm_num
        rw [h5]
        exact mul_lt_mul_of_pos_right h4 (zpow_pos (by norm_num) _)
      exact_mod_cast h3
    constructor
    · intro _; omega
    · intro _; constructor
      · intro h; omega
      · intro h; exact absurd this h
  · obtain ⟨b1, b2, -⟩ := a3 (by omega)
    have hge : 2 ^ 63 ≤ f.m.toNat := by
      have h3 : (2 ^ 63 : ℤ) ≤ f.m.toNat := by
        rw [b2, Int.le_floor]
        have h5 : (((2 ^ 63 : ℤ)) : ℚ) = (2 : ℚ) ^ (e - 1) * 2 ^ (64 - e) := by
          rw [← zpow_add₀ (by norm_num), show e - 1 + (64 - e) = (63 : ℤ) by ring]; norm_num
        rw [h5]
        exact mul_le_mul_of_nonneg_right h1 (zpow_pos (by norm_num) _).le
      exact_mod_cast h3
    have hmod : (f.se.toNat % 2 ^ 15 : ℤ) = (e + 16382) % 2 ^ 15 := by
      rw [b1]; split_ifs <;> omega
    constructor
    · intro h
      have := h.1 hge
      omega
    · intro h
      constructor
      · intro _ h0
        apply h
        have : (e + 16382) % 2 ^ 15 = 0 := by rw [← hmod]; exact_mod_cast h0
        omega
      · intro _; exact hge

example := C94_float80x86 Sample.y Sample.y_wf Sample.y_datum (e := 1) (by norm_num) (by norm_num)

/-- C94, float80x86, what remains in that case: unless the first conversion ended in a NaN, the second returns the canonical pattern of
the same number, and that one comes back. -/
theorem C94_float80x86_value (f : Float) (h : ∀ s, f.val ≠ .nan s) :
    ∃ x g, f.big = .ok (x, false) ∧ newFromBig x = .ok (g, .exact) ∧ g.val = f.val ∧ Settled g := by
  obtain ⟨x, g, a1, a2, a3, a4⟩ := C21_float80x86_normalises f h
  exact ⟨x, g, a1, a2, a4, (settled_iff g).2 ⟨a3, by rw [a4]; exact h⟩⟩

-- `2^16385`: the exponent field wraps to 0, and the second conversion writes the same number (`2^-16382`) with exponent field 1
example : newFromBig ⟨64, .toNearestEven, .exact, .finite, false, 1, 16386⟩ = .ok (⟨0x0000, 0x8000000000000000⟩, .above) ∧
    newFromBig ⟨64, .toNearestEven, .exact, .finite, false, 2 ^ 63, -16381⟩ = .ok (⟨0x0001, 0x8000000000000000⟩, .exact) := by
  decide +kernel

end Float80x86

namespace Float128ppc

theorem overflow_917 : double.overflowAt - 2 ^ (917 : ℤ) > 2 := by
  obtain ⟨d1, d2, d3, d4⟩ := double_facts
  unfold Format.overflowAt
  rw [d2, d3]
  have h1 : (2 : ℚ) ^ (2 : ℤ) ≤ 2 ^ (917 : ℤ) := zpow_le_zpow_right₀ (by norm_num) (by norm_num)
  have h2 : (2 : ℚ) ^ (1023 : ℤ) = 2 ^ 106 * 2 ^ (917 : ℤ) := by
    rw [← zpow_natCast, ← zpow_add₀ (by norm_num)]; norm_num
  rw [h2]
  clear h2
  generalize (2 : ℚ) ^ (917 : ℤ) = P at *
  norm_num at *
  linarith

/-- C94, float128ppc: unless `NewFromBig` panics, the second conversion returns a pair with the same sum (and the same sign of zero), and from
`2^-969` on the very same pair. Below that it need not be the same pair (`C94_float128ppc_tie`). -/
theorem C94_float128ppc (x : BigFloat) (hx : x.WF) (hf : x.form = .finite) {f : Float} {acc : Accuracy} {x' : BigFloat}
    (h : newFromBig x = .ok ((f, acc), x')) :
    ∃ y g y' d, f.big = .ok (y, false) ∧ newFromBig y = .ok ((g, .exact), y') ∧ f.sum = some d ∧ g.sum = some d ∧
      (2 ^ (-969 : ℤ) ≤ x.mag → g = f) := by
  obtain ⟨p1, p2, p3, p4⟩ := prepared_any hx hf
  rcases p4 with ⟨pf, pw, -, pe⟩ | ⟨pf, -⟩
  swap
  · rw [newFromBig_panic hx hf (Or.inl pf)] at h; exact absurd h (by simp)
  by_cases hov : double.overflowAt ≤ (prepared x).mag
  · rw [newFromBig_panic hx hf (Or.inr ⟨pf, hov⟩)] at h; exact absurd h (by simp)
  obtain ⟨high, low, rh, t1, t2, t3, t4, t5, t6, -⟩ := split_spec pw pf p2 hov
  rw [newFromBig_finite_eq hf] at h
  change split (prepared x) = _ at h
  rw [t1] at h
  simp only [Except.ok.injEq, Prod.mk.injEq] at h
  obtain ⟨⟨rfl, -⟩, -⟩ := h
  have hmp := BigFloat.mag_pos (pw.mant_pos pf)
  have hsv := BigFloat.sval_finite pf
  have habs : |(prepared x).sval| = (prepared x).mag := by rw [hsv, BigFloat.signed_abs hmp.le]
  have hfitv : ∃ k e : ℤ, |k| < 2 ^ 106 ∧ (prepared x).sval = k * (2 : ℚ) ^ e := by
    obtain ⟨k, hk, k2⟩ := sval_multiple pw pf p2.le
    refine ⟨if (prepared x).neg then -(k : ℤ) else k, (prepared x).exp - (106 : ℕ), ?_, ?_⟩
    · have : ((k : ℤ)) < 2 ^ 106 := by exact_mod_cast k2
      split
      · rw [abs_neg, abs_of_nonneg (by omega)]; exact this
      · rw [abs_of_nonneg (by omega)]; exact this
    · rw [hsv, hk]
      unfold signed
      cases (prepared x).neg <;> simp
  generalize hV : (prepared x).sval = v at *
  generalize (prepared x).neg = s at *
  have hz64 : double.decode (0 : F64).toNat = .num false 0 := double_zero
  by_cases hbig : -968 ≤ (prepared x).exp
  · obtain ⟨sl, rl, q1, q2⟩ := t6 hbig
    have hsum : signed s rh + signed sl rl = v := by rw [q2]; ring
    have hv0 : v ≠ 0 := by rw [← abs_pos, habs]; exact hmp
    have hdec : decide (v < 0) = s := by
      rw [hsv]; unfold signed
      cases s <;> simp [hmp, hmp.le]
    have hcan : Canonical ⟨high, low⟩ := ⟨s, rh, sl, rl, t2, q1, fun hc => absurd (hsum ▸ hc) hv0,
      fun _ => by rw [hsum, hdec, habs]; exact t3, by rw [hsum]; exact hfitv⟩
    obtain ⟨y, y', b1, b2⟩ := C32_partial _ hcan
    have hlow : low ≠ 0x8000000000000000 := by
      intro hc
      have h2 : double.decode low.toNat = .num true 0 := by
        rw [hc]; exact (roundsTo_zero double (by decide) true).1
      rw [q1] at h2
      injection h2 with _ h2
      have : v - signed s rh = 0 := by rw [← q2, h2]; unfold signed; split <;> simp
      rw [t4 this] at hc
      exact absurd hc (by decide)
    simp only [if_neg hlow] at b2
    exact ⟨y, _, y', _, b1, b2, sum_halves t2 q1, sum_halves t2 q1, fun _ => rfl⟩
  · have hsmall : |v| ≤ 2 ^ (-969 : ℤ) := by
      rw [habs]
      refine (BigFloat.mag_lt _).le.trans (zpow_le_zpow_right₀ (by norm_num) (by omega))
    obtain ⟨sl, rl, q1, J, q2, q3⟩ := split_small (low := low.toNat) hsmall (by rw [habs]; exact hsv.symm) t2 (by rw [habs]; exact t3)
      (fun hc => by rw [t4 hc]; exact hz64) t5
    have hu : (0 : ℚ) < 2 ^ (-1074 : ℤ) := zpow_pos (by norm_num) _
    have hK : (2 : ℚ) ^ (-969 : ℤ) = ((2 ^ 105 : ℤ) : ℚ) * 2 ^ (-1074 : ℤ) := by
      rw [Int.cast_pow, Int.cast_ofNat, ← zpow_natCast, ← zpow_add₀ (by norm_num)]; norm_num
    set S := signed s rh + signed sl rl with hS
    have hSa : |S| ≤ (2 ^ 105 : ℤ) * (2 : ℚ) ^ (-1074 : ℤ) + 2 ^ (-1074 : ℤ) / 2 := by
      have : |S| ≤ |v| + |S - v| := by
        have := abs_add_le v (S - v); rwa [add_sub_cancel] at this
      rw [hK] at hsmall
      generalize ((2 ^ 105 : ℤ) : ℚ) * 2 ^ (-1074 : ℤ) = A at *
      generalize (2 : ℚ) ^ (-1074 : ℤ) / 2 = B at *
      exact this.trans (add_le_add hsmall q3)
    have hJ : |J| < 2 ^ 106 := by
      have h1 : (|J| : ℚ) * 2 ^ (-1074 : ℤ) < (2 ^ 106 : ℤ) * (2 : ℚ) ^ (-1074 : ℤ) := by
        rw [← abs_of_pos hu, ← abs_mul, abs_of_pos hu, ← q2]
        refine hSa.trans_lt ?_
        generalize (2 : ℚ) ^ (-1074 : ℤ) = u at hu ⊢
        norm_num
        linarith
      have := lt_of_mul_lt_mul_right h1 hu.le
      exact_mod_cast this
    obtain ⟨y, b1, b2, b3⟩ := big_finite (f := ⟨high, low⟩) t2 q1
    rw [← hS] at b2 b3
    have hone : (2 : ℚ) ^ (-968 : ℤ) ≤ 1 := zpow_le_one_of_nonpos₀ (by norm_num) (by norm_num)
    have hyall : Splittable y ∧ y.sval = S ∧ (S = 0 → y.neg = s) := by
      by_cases h0 : S = 0
      · obtain ⟨c1, c2, c3, c4, c5⟩ := b2 h0
        refine ⟨⟨⟨by rw [c4]; decide, fun hc => absurd (c1.symm.trans hc) (by simp), fun hc => absurd (c1.symm.trans hc) (by simp),
          fun hc => absurd (c1.symm.trans hc) (by simp), fun hc => absurd (c1.symm.trans hc) (by simp),
          fun hc => absurd (c1.symm.trans hc) (by simp)⟩, Or.inl c1⟩, ?_, fun _ => c2⟩
        unfold BigFloat.sval; rw [c1, h0]; rfl
      · have hr := b3 h0
        obtain ⟨e1, -⟩ := hr.exact (by decide) hJ q2
        refine ⟨⟨hr.2.2.1, Or.inr ⟨hr.2.2.2.1, Or.inl hr.2.1, ?_⟩⟩, e1, fun hc => absurd hc h0⟩
        have : y.mag = |S| := by
          rw [← e1, BigFloat.sval_finite hr.2.2.2.1, BigFloat.signed_abs (BigFloat.mag_pos (hr.2.2.1.mant_pos hr.2.2.2.1)).le]
        rw [this]
        have e1 : double.overflowAt - 2 ^ (917 : ℤ) > 2 := overflow_917
        have e2 : (2 : ℚ) ^ (-969 : ℤ) ≤ 1 := zpow_le_one_of_nonpos₀ (by norm_num) (by norm_num)
        have e3 : (2 : ℚ) ^ (-1074 : ℤ) ≤ 1 := zpow_le_one_of_nonpos₀ (by norm_num) (by norm_num)
        rw [← hK] at hSa
        generalize (2 : ℚ) ^ (-969 : ℤ) = A at *
        generalize (2 : ℚ) ^ (-1074 : ℤ) = B at *
        generalize double.overflowAt - 2 ^ (917 : ℤ) = C at *
        linarith
    obtain ⟨hspl, hys, hyn⟩ := hyall
    obtain ⟨g, y', w, rh', sl', rl', d1, d2, d3, d4, d5, d6, d7, d8, d9, d10⟩ := newFromBig_halves hspl
    have hw : w = S := by
      have := d2.2.1 J (-1074) hJ
      rw [← q2, hys, sub_self, abs_zero, abs_nonpos_iff, sub_eq_zero] at this
      exact this.symm
    have hsum : signed y.neg rh' + signed sl' rl' = S := by
      by_cases hc : 2 ^ (-969 : ℤ) ≤ |y.sval|
      · rw [d9 hc, hw]
      · obtain ⟨J', j1, j2⟩ := d10 (not_le.1 hc)
        rw [hw] at j2
        have := grid_zero (J := J' - J) hu (S := signed y.neg rh' + signed sl' rl' - S) (by rw [j1, q2, Int.cast_sub, sub_mul]) j2
        linarith
    refine ⟨y, g, y', _, b1, d1, sum_halves t2 q1, ?_, fun hc => ?_⟩
    · rw [sum_halves d4 d5, hsum, ← hS]
      by_cases h0 : S = 0
      · rw [if_pos h0, if_pos h0, hyn h0]
      · rw [if_neg h0, if_neg h0]
    · exfalso
      have := hc.trans_lt (BigFloat.mag_lt x)
      have := (zpow_lt_zpow_iff_right₀ (by norm_num : (1 : ℚ) < 2)).1 this
      omega

/-- Every pair that `NewFromBig` returns comes back bit for bit. -/
def AllSettle : Prop := ∀ x : BigFloat, x.WF → x.form = .finite → ∀ f acc x', newFromBig x = .ok ((f, acc), x') →
  ∃ y y', f.big = .ok (y, false) ∧ newFromBig y = .ok ((f, .exact), y')

/-- `2^-1021 + 2^-1073 + 3 * 2^-1076`: the rest behind the high half is rounded up to half a unit of the high half. -/
def nearTie : BigFloat := ⟨106, .toNearestEven, .exact, .finite, false, 2 ^ 55 + 11, -1020⟩

theorem nearTie_wf : nearTie.WF :=
  ⟨by decide, by decide, by decide, by decide, by decide, fun _ => ⟨2 ^ 55 + 11, 0, by decide, by decide⟩⟩

theorem nearTie_first : newFromBig nearTie = .ok ((newFromBits 0x0020000000000001 0x0000000000000001, .exact), nearTie) := by
  decide +kernel

/-- C94, float128ppc, below `2^-969` not every pair comes back: the second conversion of `2^-1021 + 2^-1073 + 3 * 2^-1076` finds a tie and returns another pair. -/
theorem C94_float128ppc_tie : ¬ AllSettle := by
  intro h
  obtain ⟨y, y', h1, h2⟩ := h nearTie nearTie_wf rfl _ _ _ nearTie_first
  have e1 : (newFromBits 0x0020000000000001 0x0000000000000001).big =
      .ok (⟨106, .toNearestEven, .exact, .finite, false, 2 ^ 53 + 3, -1020⟩, false) := by decide +kernel
  rw [e1] at h1
  simp only [Except.ok.injEq, Prod.mk.injEq, and_true] at h1
  rw [← h1] at h2
  have e2 : newFromBig ⟨106, .toNearestEven, .exact, .finite, false, 2 ^ 53 + 3, -1020⟩ =
      .ok ((newFromBits 0x0020000000000002 0x8000000000000001, .exact), ⟨106, .toNearestEven, .exact, .finite, false, 2 ^ 53 + 3, -1020⟩) := by
    decide +kernel
  rw [e2] at h2
  simp only [Except.ok.injEq, Prod.mk.injEq] at h2
  exact absurd h2.1.1 (by decide)

-- `C94_float128ppc` speaks about this number, and about `1 + 2^-200`, whose pair comes back
example : nearTie.WF ∧ nearTie.form = .finite ∧ ∃ f x', newFromBig nearTie = .ok ((f, .exact), x') :=
  ⟨nearTie_wf, rfl, _, _, nearTie_first⟩
example : (onePlus .toNearestEven).WF ∧ 2 ^ (-969 : ℤ) ≤ (onePlus .toNearestEven).mag := by
  refine ⟨onePlus_wf _, ?_⟩
  have h1 : (2 : ℚ) ^ (-969 : ℤ) ≤ 1 := zpow_le_one_of_nonpos₀ (by norm_num) (by norm_num)
  have h3 : (0 : ℚ) < 2 ^ (-200 : ℤ) := zpow_pos (by norm_num) _
  rw [onePlus_mag]; generalize (2 : ℚ) ^ (-969 : ℤ) = A at *; linarith

end Float128ppc
end GoFloat
