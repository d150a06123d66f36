import Verif.Proofs.Sample
import Verif.Proofs.Float128ppc
import Verif.Spec.Convert
/-
Properties of package float128ppc (C26 to C32 and C50 of properties.jsonl).
-/
namespace GoFloat.Float128ppc
open Spec

/-- C26: the bit patterns are preserved. -/
theorem C26_float128ppc_bits (a b : BitVec 64) : (newFromBits a b).bitsOf = (a, b) := rfl

example : (newFromBits 0x400C000000000030 0xFFF0000000000000).bitsOf = (0x400C000000000030, 0xFFF0000000000000) := by decide

/-! ### C27 -/

/-- What `Big` should return for the halves `h` and `l`. -/
def SumOf (h l : Datum) (x : BigFloat) (nan : Bool) : Prop :=
  match h, l with
  | .nan _, _ => nan = true
  | _, .nan _ => nan = true
  | .inf s, .inf _ => nan = false ∧ x.datum = .inf s ∧ x.acc = .exact
  | .inf s, .num _ _ => nan = false ∧ x.datum = .inf s ∧ x.acc = .exact
  | .num _ _, .inf s => nan = false ∧ x.datum = .inf s ∧ x.acc = .exact
  | .num s₁ m₁, .num s₂ m₂ =>
    nan = false ∧ x.prec = 106 ∧ x.mode = .toNearestEven ∧ x.WF ∧
    ∃ s m, x.datum = .num s m ∧ RoundsToBits 106 (signed s₁ m₁ + signed s₂ m₂) (signed s m) ∧
      AccuracyOf x.acc (signed s m) (signed s₁ m₁ + signed s₂ m₂) ∧
      (signed s₁ m₁ + signed s₂ m₂ = 0 → s = s₁) ∧
      (signed s₁ m₁ + signed s₂ m₂ ≠ 0 → s = decide (signed s₁ m₁ + signed s₂ m₂ < 0))

/-- C27, full statement (false, see below): `Big` always returns the sum of the halves. -/
def C27_full : Prop := ∀ f : Float, ∃ x nan, f.big = .ok (x, nan) ∧
  SumOf (double.decode f.high.toNat) (double.decode f.low.toNat) x nan

/-- C27 is false: `Big` panics when the halves are infinities of opposite sign. -/
theorem C27_false : ¬ C27_full := by
  intro h
  obtain ⟨x, nan, h1, -⟩ := h ⟨0x7FF0000000000000, 0xFFF0000000000000⟩
  have h2 : Float.big ⟨0x7FF0000000000000, 0xFFF0000000000000⟩ = .error .errNaN := by decide +kernel
  rw [h2] at h1
  exact absurd h1 (by simp)

theorem roundsToBits_zero : RoundsToBits 106 0 0 := by
  refine ⟨⟨0, 0, by norm_num, by simp⟩, fun k e _ => by rw [sub_zero, abs_zero]; exact abs_nonneg _, ?_⟩
  intro k e _ hne heq
  rw [sub_zero, abs_zero, zero_sub, abs_neg, eq_comm, abs_eq_zero] at heq
  exact absurd heq hne

theorem accuracyOf_accOf {s : Bool} {r m : ℚ} : AccuracyOf (BigFloat.accOf s r m) (signed s r) (signed s m) := by
  unfold BigFloat.accOf
  split
  · rename_i h; rw [h]; rfl
  · rename_i hne
    unfold signed AccuracyOf
    rcases lt_or_gt_of_ne hne with h | h <;> cases s <;> simp [h, not_lt.2 h.le, makeAcc]

/-- The shape of a sum that is not zero. -/
theorem rounded_sum {v : ℚ} {x : BigFloat} (hr : BigFloat.RoundedTo big0 v x) :
    x.prec = 106 ∧ x.mode = .toNearestEven ∧ x.WF ∧ ∃ s m, x.datum = .num s m ∧ RoundsToBits 106 v (signed s m) ∧
      AccuracyOf x.acc (signed s m) v ∧ s = decide (v < 0) := by
  have hsp := hr.spec (by decide)
  obtain ⟨h1, h2, hw, hf, hn, e, he1, he2, hm, -, ha⟩ := hr
  refine ⟨h1, h2, hw, x.neg, x.mag, BigFloat.datum_finite hf, ?_, ?_, hn⟩
  · rw [← BigFloat.sval_finite hf]; exact hsp
  · rw [ha]
    have hv : v = signed x.neg |v| := by
      rw [hn]; unfold signed
      split <;> rename_i h <;> simp only [decide_eq_true_eq, not_lt] at h
      · rw [abs_of_neg h, neg_neg]
      · rw [abs_of_nonneg h]
    conv_rhs => rw [hv]
    exact accuracyOf_accOf

/-- C27, for every pair except opposite infinities: `Big` returns the sum of the halves, rounded to 106 bits, with the true
accuracy. Missing, because false: opposite infinities, which panic. -/
theorem C27_partial (f : Float)
    (h : ∀ s, ¬ (double.decode f.high.toNat = .inf s ∧ double.decode f.low.toNat = .inf (!s))) :
    ∃ x nan, f.big = .ok (x, nan) ∧ SumOf (double.decode f.high.toNat) (double.decode f.low.toNat) x nan := by
  by_cases hn : f.isNaN = true
  · refine ⟨big0, true, big_nan hn, ?_⟩
    rcases (isNaN_iff f).1 hn with ⟨s, h1⟩ | ⟨s, h1⟩
    · rw [h1]; rfl
    · rw [h1]
      cases double.decode f.high.toNat <;> rfl
  · have hnn : F64.isNaN f.high = false ∧ F64.isNaN f.low = false := by
      unfold Float.isNaN at hn
      cases h1 : F64.isNaN f.high <;> cases h2 : F64.isNaN f.low <;> simp_all
    have nn : ∀ y : F64, F64.isNaN y = false → ∀ s, double.decode y.toNat ≠ .nan s := by
      intro y hy s hs
      rw [(isNaN64_iff y).2 ⟨s, hs⟩] at hy; exact absurd hy (by decide)
    cases h1 : double.decode f.high.toNat with
    | nan s => exact absurd h1 (nn _ hnn.1 s)
    | inf s =>
      have hl : double.decode f.low.toNat ≠ .inf (!s) := fun hc => h s ⟨h1, hc⟩
      obtain ⟨x, e1, e2, e3, e4, e5, e6⟩ := (big_infinite hnn.1 hnn.2 (Or.inl h1)).1 (by
        rw [h1]; intro hc; injection hc with hc; cases s <;> simp at hc) hl
      refine ⟨x, false, e1, ?_⟩
      cases h2 : double.decode f.low.toNat with
      | nan s => exact absurd h2 (nn _ hnn.2 s)
      | inf s' => exact ⟨rfl, e2, e4⟩
      | num s' m' => exact ⟨rfl, e2, e4⟩
    | num s₁ m₁ =>
      cases h2 : double.decode f.low.toNat with
      | nan s => exact absurd h2 (nn _ hnn.2 s)
      | inf s =>
        obtain ⟨x, e1, e2, e3, e4, e5, e6⟩ := (big_infinite hnn.1 hnn.2 (Or.inr h2)).1 (by rw [h1]; simp) (by
          rw [h2]; intro hc; injection hc with hc; cases s <;> simp at hc)
        exact ⟨x, false, e1, rfl, e2, e4⟩
      | num s₂ m₂ =>
        obtain ⟨x, e1, e2, e3⟩ := big_finite h1 h2
        refine ⟨x, false, e1, rfl, ?_⟩
        by_cases h0 : signed s₁ m₁ + signed s₂ m₂ = 0
        · obtain ⟨a1, a2, a3, a4, a5⟩ := e2 h0
          have hz : ∀ s, signed s 0 = 0 := by intro s; unfold signed; split <;> simp
          refine ⟨a4, a5, ⟨by rw [a4]; decide, ?_, ?_, ?_, ?_, ?_⟩, s₁, 0, ?_, ?_, ?_, fun _ => rfl, fun hc => absurd h0 hc⟩
          any_goals (intro hc; rw [a1] at hc; exact absurd hc (by decide))
          · unfold BigFloat.datum; rw [a1, a2]
          · rw [h0, hz]; exact roundsToBits_zero
          · rw [h0, hz, a3]; rfl
        · obtain ⟨a1, a2, a3, s, m, a4, a5, a6, a7⟩ := rounded_sum (e3 h0)
          exact ⟨a1, a2, a3, s, m, a4, a5, a6, fun hc => absurd hc h0, fun _ => a7⟩

example := C27_partial ⟨0xBFF6000000000000, 0x3C30000000000000⟩ fun s h => by rw [Sample.x_double] at h; exact absurd h.1 (by simp)

/-- C27: `nan` is reported exactly when a half is a NaN. -/
theorem C27_float128ppc_nan (f : Float) :
    (∃ x, f.big = .ok (x, true)) ↔ (∃ s, double.decode f.high.toNat = .nan s) ∨ (∃ s, double.decode f.low.toNat = .nan s) := by
  rw [← isNaN_iff]
  constructor
  · rintro ⟨x, hx⟩
    by_contra hn
    have hh : ∀ s, ¬ (double.decode f.high.toNat = .inf s ∧ double.decode f.low.toNat = .inf (!s)) := by
      rintro s ⟨a, b⟩
      rw [(big_infinite (isNaN_false_of_inf a) (isNaN_false_of_inf b) (Or.inl a)).2 (Or.inr b)] at hx
      exact absurd hx (by simp)
    obtain ⟨y, nan, h1, h2⟩ := C27_partial f hh
    rw [h1] at hx
    simp only [Except.ok.injEq, Prod.mk.injEq] at hx
    rw [hx.2] at h2
    rw [isNaN_iff] at hn
    push Not at hn
    cases h3 : double.decode f.high.toNat with
    | nan s => exact hn.1 s h3
    | inf s =>
      cases h4 : double.decode f.low.toNat with
      | nan s => exact hn.2 s h4
      | inf s => rw [h3, h4] at h2; exact absurd h2.1 (by decide)
      | num s m => rw [h3, h4] at h2; exact absurd h2.1 (by decide)
    | num s m =>
      cases h4 : double.decode f.low.toNat with
      | nan s => exact hn.2 s h4
      | inf s => rw [h3, h4] at h2; exact absurd h2.1 (by decide)
      | num s m => rw [h3, h4] at h2; exact absurd h2.1 (by decide)
  · intro h; exact ⟨_, big_nan h⟩

/-- C27: a sum that fits in 106 bits is returned exactly. -/
theorem C27_float128ppc_exact (f : Float) {s₁ s₂ : Bool} {m₁ m₂ : ℚ} (h1 : double.decode f.high.toNat = .num s₁ m₁)
    (h2 : double.decode f.low.toNat = .num s₂ m₂) {k e : ℤ} (hk : |k| < 2 ^ 106)
    (hv : signed s₁ m₁ + signed s₂ m₂ = k * (2 : ℚ) ^ e) :
    ∃ x s m, f.big = .ok (x, false) ∧ x.datum = .num s m ∧ signed s m = signed s₁ m₁ + signed s₂ m₂ ∧ x.acc = .exact := by
  obtain ⟨x, nan, hb, hs⟩ := C27_partial f (by intro s; rw [h1]; simp)
  rw [h1, h2] at hs
  obtain ⟨rfl, -, -, -, s, m, hd, hr, ha, -⟩ := hs
  have h3 := hr.2.1 k e hk
  rw [← hv, sub_self, abs_zero, abs_nonpos_iff, sub_eq_zero] at h3
  refine ⟨x, s, m, hb, hd, h3.symm, ?_⟩
  unfold AccuracyOf at ha
  revert ha
  cases x.acc
  · intro ha; exact absurd ha (by rw [h3]; exact lt_irrefl _)
  · intro _; rfl
  · intro ha; exact absurd ha (by rw [h3]; exact lt_irrefl _)

-- 1 + 2^-60: exact
example : ∃ x, Float.big ⟨0x3FF0000000000000, 0x3C30000000000000⟩ = .ok (x, false) ∧ x.mant = 2 ^ 105 + 2 ^ 45 ∧ x.exp = 1 ∧
    x.acc = .exact := by
  refine ⟨⟨106, .toNearestEven, .exact, .finite, false, 2 ^ 105 + 2 ^ 45, 1⟩, by decide +kernel, rfl, rfl, rfl⟩

/-! ### C28 -/

/-- C28: every float64 that is not a NaN embeds as `(x, +0)`, exactly, and comes back. -/
theorem C28_float128ppc_float64 (x : F64) (h : ∀ s, double.decode x.toNat ≠ .nan s) :
    newFromFloat64 x = .ok (newFromBits x 0, .exact) ∧ (newFromBits x 0).float64 = .ok (x, .exact) := by
  have hn : F64.isNaN x = false := by
    rw [Bool.eq_false_iff]; intro hc; obtain ⟨s, hs⟩ := (isNaN64_iff x).1 hc; exact h s hs
  refine ⟨newFromFloat64_num hn, ?_⟩
  obtain ⟨y, h1, h2, h3, h4⟩ := big_embed hn
  have hb : (newFromBits x 0).big = .ok (y, false) := h1
  rw [float64_of_big hb]
  obtain ⟨e1, e2⟩ := toF64_exact (F := double) (by decide) le_rfl le_rfl le_rfl h4 (c := x.toNat) (nan := false) (by
    unfold Decoded
    cases hd : double.decode x.toNat with
    | nan s => exact absurd hd (h s)
    | inf s => exact ⟨rfl, by rw [h2, hd]⟩
    | num s m => exact ⟨rfl, by rw [h2, hd]⟩) h
  have e3 : (toF64 y false).1 = x := decode_inj64 e1 (by rw [e1]; exact h)
  rw [← e3, ← e2]

example := C28_float128ppc_float64 0xBFF6000000000000 fun s => by rw [Sample.x_double]; simp

/-- C28: every float32 that is not a NaN embeds exactly and comes back. -/
theorem C28_float128ppc_float32 (x : F32) (h : ∀ s, single.decode x.toNat ≠ .nan s) :
    ∃ y : F64, double.decode y.toNat = single.decode x.toNat ∧ newFromFloat32 x = .ok (newFromBits y 0, .exact) ∧
      (newFromBits y 0).float32 = .ok (x, .exact) ∧ (newFromBits y 0).float64 = .ok (y, .exact) := by
  have hd := (f32to64_decode x).2 (by rintro ⟨s, hs⟩; exact h s hs)
  have h' : ∀ s, double.decode (f32to64 x).toNat ≠ .nan s := by rw [hd]; exact h
  have hn : F64.isNaN (f32to64 x) = false := by
    rw [Bool.eq_false_iff]; intro hc; obtain ⟨s, hs⟩ := (isNaN64_iff _).1 hc; exact h' s hs
  obtain ⟨y, h1, h2, h3, h4⟩ := big_embed hn
  have hf : (newFromBits (f32to64 x) 0).float32 = .ok (x, .exact) := by
    have := float32_of_big h1
    obtain ⟨e1, e2⟩ := toF32_exact (F := single) (by decide) le_rfl le_rfl le_rfl h4 (c := x.toNat) (nan := false) (by
      unfold Decoded
      cases hd' : single.decode x.toNat with
      | nan s => exact absurd hd' (h s)
      | inf s => exact ⟨rfl, by rw [h2, hd, hd']⟩
      | num s m => exact ⟨rfl, by rw [h2, hd, hd']⟩) h
    have e3 : (toF32 y false).1 = x := decode_inj32 e1 (by rw [e1]; exact h)
    rw [← e3, ← e2]; rw [← e3] at this; exact this
  refine ⟨f32to64 x, hd, ?_, hf, (C28_float128ppc_float64 _ h').2⟩
  unfold newFromFloat32
  rw [newFromFloat64_num hn]
  simp only [bind, Except.bind, pure, Except.pure, if_true]
  have hf' : (Float.mk (f32to64 x) 0).float32 = .ok (x, .exact) := hf
  rw [hf']
  rfl

example : newFromFloat64 0x8000000000000000 = .ok (⟨0x8000000000000000, 0⟩, .exact) := by decide +kernel
example : newFromFloat64 0xFFF0000000000000 = .ok (⟨0xFFF0000000000000, 0⟩, .exact) := by decide +kernel
example : newFromFloat32 0x3DCCCCCD = .ok (⟨0x3FB99999A0000000, 0⟩, .exact) := by decide +kernel

/-! ### C29 -/

/-- C29, what `NewFromBig` should return for a number in range: a pair whose sum `v` is the argument rounded to 106 bits,
whose `high` is the double nearest to `v`, whose `low` is at most half a unit in the last place of `high`, and an
accuracy that is Exact when nothing was lost. -/
def Splits (x : BigFloat) (f : Float) (acc : Accuracy) : Prop :=
  ∃ v mh sl ml, RoundsToBits 106 x.sval v ∧ double.decode f.high.toNat = .num x.neg mh ∧ double.RoundsTo x.neg |v| f.high.toNat ∧
    double.decode f.low.toNat = .num sl ml ∧ signed x.neg mh + signed sl ml = v ∧
    (∀ e : ℤ, mh < 2 ^ (e + 1) → ml ≤ 2 ^ (e - 53)) ∧ (acc = .exact ↔ v = x.sval)

/-- C29, full statement (false, see below). -/
def C29_full : Prop := ∀ x : BigFloat, x.WF → x.form = .finite → 2 ^ (-969 : ℤ) ≤ x.mag → x.mag < double.overflowAt →
  ∃ f acc x', newFromBig x = .ok ((f, acc), x') ∧ Splits x f acc

/-- `1 + 2^-200` with 201 bits. -/
def onePlus (m : RoundingMode) : BigFloat := ⟨201, m, .exact, .finite, false, 2 ^ 200 + 1, 1⟩

theorem onePlus_wf (m : RoundingMode) : (onePlus m).WF := by
  refine ⟨show 201 ≤ BigFloat.MaxPrec by decide, fun _ => ?_, fun _ => show BigFloat.MinExp ≤ 1 by decide,
    fun _ => show 1 ≤ BigFloat.MaxExp by decide, fun _ => show 1 ≤ 201 by decide, fun _ => ⟨2 ^ 200 + 1, 0, ?_, ?_⟩⟩
  · show 0 < 2 ^ 200 + 1; decide +kernel
  · show 2 ^ 200 + 1 = _; decide +kernel
  · show 2 ^ 200 + 1 < 2 ^ 201; decide +kernel

theorem onePlus_mag (m : RoundingMode) : (onePlus m).mag = 1 + 2 ^ (-200 : ℤ) := by
  rw [BigFloat.mag_eq]
  show ((2 ^ 200 + 1 : ℕ) : ℚ) * 2 ^ (1 - (bitLen (2 ^ 200 + 1) : ℤ)) = _
  rw [show bitLen (2 ^ 200 + 1) = 201 by decide +kernel]
  norm_num

theorem double_one : double.decode 0x3FF0000000000000 = .num false 1 := by
  norm_num [Format.decode, double, Format.bias]

theorem one_lt_overflow : (2 : ℚ) < double.overflowAt := by
  obtain ⟨d1, d2, d3, d4⟩ := double_facts
  unfold Format.overflowAt
  rw [d2, d3]
  have : (2 : ℚ) ^ (2 : ℤ) ≤ 2 ^ (1023 : ℤ) := zpow_le_zpow_right₀ (by norm_num) (by norm_num)
  generalize (2 : ℚ) ^ (1023 : ℤ) = P at this
  norm_num at this ⊢
  linarith

/-- C29 is false: `1 + 2^-200` becomes 1, with accuracy Exact. -/
theorem C29_false : ¬ C29_full := by
  intro h
  have h1 : (2 : ℚ) ^ (-969 : ℤ) ≤ 1 := zpow_le_one_of_nonpos₀ (by norm_num) (by norm_num)
  have h2 : (2 : ℚ) ^ (-200 : ℤ) ≤ 1 := zpow_le_one_of_nonpos₀ (by norm_num) (by norm_num)
  have h3 : (0 : ℚ) < 2 ^ (-200 : ℤ) := zpow_pos (by norm_num) _
  have h4 := one_lt_overflow
  obtain ⟨f, acc, x', hr, v, mh, sl, ml, -, hh, -, hl, hsum, -, hacc⟩ := h (onePlus .toNearestEven) (onePlus_wf _) rfl (by
    rw [onePlus_mag]; generalize (2 : ℚ) ^ (-969 : ℤ) = A at *; linarith) (by
    rw [onePlus_mag]; linarith)
  have hev : ∃ y, newFromBig (onePlus .toNearestEven) = .ok ((⟨0x3FF0000000000000, 0⟩, .exact), y) :=
    ⟨⟨106, .toNearestEven, .exact, .finite, false, 2 ^ 105, 1⟩, by decide +kernel⟩
  obtain ⟨y, hev⟩ := hev
  rw [hev] at hr
  simp only [Except.ok.injEq, Prod.mk.injEq] at hr
  obtain ⟨⟨rfl, rfl⟩, -⟩ := hr
  have hv := hacc.1 rfl
  have hh' : double.decode 0x3FF0000000000000 = .num (onePlus .toNearestEven).neg mh := hh
  have hl' : double.decode 0 = .num sl ml := hl
  have hz : double.decode 0 = .num false 0 := (roundsTo_zero double (by decide) false).1
  rw [double_one] at hh'
  rw [hz] at hl'
  injection hh' with a1 a2
  injection hl' with b1 b2
  rw [← a1, ← a2, ← b1, ← b2, hv, BigFloat.sval_finite rfl, onePlus_mag, ← a1] at hsum
  simp only [signed, Bool.false_eq_true, if_false, add_zero] at hsum
  linarith

/-- C29, the splitting, without the accuracy: also false, because the rounding to 106 bits uses the rounding mode of the
argument: `1 + 2^-200` with mode AwayFromZero becomes `1 + 2^-105`. -/
theorem C29_false_mode : ∃ x : BigFloat, x.WF ∧ x.form = .finite ∧ x.mag = 1 + 2 ^ (-200 : ℤ) ∧
    ∃ acc x', newFromBig x = .ok ((newFromBits 0x3FF0000000000000 0x3960000000000000, acc), x') :=
  ⟨onePlus .awayFromZero, onePlus_wf _, rfl, onePlus_mag _, .exact, ⟨106, .toNearestEven, .exact, .finite, false, 2 ^ 105 + 1, 1⟩,
    by decide +kernel⟩

/-- C29, splitting, for an argument that rounds to nearest even or has at most 106 bits. The pair is right; the accuracy is
always Exact. Other rounding modes: `C29_modes_partial`. Missing, because false: rounding to nearest in those, a truthful
accuracy when the argument does not fit in 106 bits, and arguments that round up to the overflow threshold (see C30). -/
theorem C29_partial (x : BigFloat) (hx : x.WF) (hf : x.form = .finite) (hmode : x.mode = .toNearestEven ∨ x.prec ≤ 106)
    (hlo : 2 ^ (-969 : ℤ) ≤ x.mag) (hhi : x.mag < double.overflowAt - 2 ^ (917 : ℤ)) :
    ∃ f x', newFromBig x = .ok ((f, .exact), x') ∧
      ∃ v mh sl ml, RoundsToBits 106 x.sval v ∧ double.decode f.high.toNat = .num x.neg mh ∧
        double.RoundsTo x.neg |v| f.high.toNat ∧ double.decode f.low.toNat = .num sl ml ∧ signed x.neg mh + signed sl ml = v ∧
        (∀ e : ℤ, mh < 2 ^ (e + 1) → ml ≤ 2 ^ (e - 53)) := by
  obtain ⟨v, high, low, rh, h1, h2, h3, h4, h5, h6, h7, h8⟩ := (newFromBig_spec hx hf hmode).2 hhi
  obtain ⟨⟨sl, ml, q1, q2⟩, -, q3⟩ := h8 hlo
  refine ⟨⟨high, low⟩, prepared x, h1, v, rh, sl, ml, h2, h3, h5, q1, by rw [q2]; ring, ?_⟩
  intro e he
  have hml : 0 ≤ ml := by
    obtain ⟨n, -, h, -⟩ := double.code_of_decode q1
    rw [h]; exact double.magc_nonneg n
  have := q3 e he
  rw [← q2, BigFloat.signed_abs hml] at this
  exact this

/-- C29, an argument that fits in 106 bits: nothing is lost, and Exact is the truth. -/
theorem C29_float128ppc_exact (x : BigFloat) (hx : x.WF) (hf : x.form = .finite) (hmode : x.mode = .toNearestEven ∨ x.prec ≤ 106)
    (hlo : 2 ^ (-969 : ℤ) ≤ x.mag) (hhi : x.mag < double.overflowAt - 2 ^ (917 : ℤ)) {k e : ℤ} (hk : |k| < 2 ^ 106)
    (hv : x.sval = k * (2 : ℚ) ^ e) :
    ∃ f x', newFromBig x = .ok ((f, .exact), x') ∧ Splits x f .exact ∧
      ∃ sh mh sl ml, double.decode f.high.toNat = .num sh mh ∧ double.decode f.low.toNat = .num sl ml ∧
        signed sh mh + signed sl ml = x.sval := by
  obtain ⟨f, x', h1, v, mh, sl, ml, h2, h3, h4, h5, h6, h7⟩ := C29_partial x hx hf hmode hlo hhi
  have h8 := h2.2.1 k e hk
  rw [← hv, sub_self, abs_zero, abs_nonpos_iff, sub_eq_zero] at h8
  exact ⟨f, x', h1, ⟨v, mh, sl, ml, h2, h3, h4, h5, h6, h7, by simp [h8]⟩, x.neg, mh, sl, ml, h3, h5, by rw [h6, h8]⟩

/-- C29, outside the range below: for every argument that does not overflow `high` is still the double nearest to the
rounded argument and `low` the double nearest to the remainder. -/
theorem C29_float128ppc_nearest (x : BigFloat) (hx : x.WF) (hf : x.form = .finite)
    (hmode : x.mode = .toNearestEven ∨ x.prec ≤ 106) (hhi : x.mag < double.overflowAt - 2 ^ (917 : ℤ)) :
    ∃ f x', newFromBig x = .ok ((f, .exact), x') ∧
      ∃ v mh, RoundsToBits 106 x.sval v ∧ double.decode f.high.toNat = .num x.neg mh ∧ double.RoundsTo x.neg |v| f.high.toNat ∧
        (v - signed x.neg mh = 0 → f.low = 0) ∧
        (v - signed x.neg mh ≠ 0 →
          double.RoundsTo (decide (v - signed x.neg mh < 0)) |v - signed x.neg mh| f.low.toNat) := by
  obtain ⟨v, high, low, rh, h1, h2, h3, h4, h5, h6, h7, h8⟩ := (newFromBig_spec hx hf hmode).2 hhi
  exact ⟨⟨high, low⟩, prepared x, h1, v, rh, h2, h3, h5, h6, h7⟩

-- the hypotheses of `C29_partial` hold for `1 + 2^-200`
example : (onePlus .toNearestEven).WF ∧ 2 ^ (-969 : ℤ) ≤ (onePlus .toNearestEven).mag ∧
    (onePlus .toNearestEven).mag < double.overflowAt - 2 ^ (917 : ℤ) := by
  refine ⟨onePlus_wf _, ?_, ?_⟩
  · have h1 : (2 : ℚ) ^ (-969 : ℤ) ≤ 1 := zpow_le_one_of_nonpos₀ (by norm_num) (by norm_num)
    have h3 : (0 : ℚ) < 2 ^ (-200 : ℤ) := zpow_pos (by norm_num) _
    rw [onePlus_mag]; generalize (2 : ℚ) ^ (-969 : ℤ) = A at *; linarith
  · rw [onePlus_mag]
    have h2 : (2 : ℚ) ^ (-200 : ℤ) ≤ 1 := zpow_le_one_of_nonpos₀ (by norm_num) (by norm_num)
    obtain ⟨d1, d2, d3, d4⟩ := double_facts
    unfold Format.overflowAt
    rw [d2, d3, show (1023 : ℤ) = 917 + 106 by norm_num, zpow_add₀ (by norm_num)]
    have : (2 : ℚ) ^ (1 : ℤ) ≤ 2 ^ (917 : ℤ) := zpow_le_zpow_right₀ (by norm_num) (by norm_num)
    generalize (2 : ℚ) ^ (917 : ℤ) = P at this ⊢
    generalize (2 : ℚ) ^ (-200 : ℤ) = R at h2 ⊢
    norm_num at this ⊢
    linarith

/-! ### C30 -/

/-- C30, full statement (false, see below): `NewFromBig` returns and leaves its argument unchanged. -/
def C30_full : Prop := ∀ x : BigFloat, x.WF → ∃ r, newFromBig x = .ok (r, x)

/-- 2^1024 -/
def twoTo1024 : BigFloat := ⟨53, .toNearestEven, .exact, .finite, false, 1, 1025⟩

theorem twoTo1024_wf : twoTo1024.WF :=
  ⟨show 53 ≤ BigFloat.MaxPrec by decide, fun _ => Nat.one_pos, fun _ => show BigFloat.MinExp ≤ 1025 by decide,
    fun _ => show 1025 ≤ BigFloat.MaxExp by decide, fun _ => show 1 ≤ 53 by decide, fun _ => ⟨1, 0, rfl, show 1 < 2 ^ 53 by norm_num⟩⟩

/-- C30 is false: `NewFromBig` panics for 2^1024. -/
theorem C30_false : ¬ C30_full := by
  intro h
  obtain ⟨r, hr⟩ := h twoTo1024 twoTo1024_wf
  have : newFromBig twoTo1024 = .error .errNaN := by decide +kernel
  rw [this] at hr
  exact absurd hr (by simp)

/-- C30, immutability: also false, `NewFromBig` rounds the caller's variable to 106 bits. -/
theorem C30_false_modifies : ∃ x : BigFloat, x.WF ∧ ∃ r x', newFromBig x = .ok (r, x') ∧ x.mag ≠ x'.mag := by
  refine ⟨onePlus .toNearestEven, onePlus_wf _, (⟨0x3FF0000000000000, 0⟩, .exact),
    ⟨106, .toNearestEven, .exact, .finite, false, 2 ^ 105, 1⟩, by decide +kernel, ?_⟩
  rw [onePlus_mag, BigFloat.mag_eq]
  show _ ≠ ((2 ^ 105 : ℕ) : ℚ) * 2 ^ (1 - (bitLen (2 ^ 105) : ℤ))
  rw [show bitLen (2 ^ 105) = 106 by decide +kernel]
  norm_num

/-- C30, totality: exactly which arguments panic. Missing, because false: that none do. -/
theorem C30_partial (x : BigFloat) (hx : x.WF) (hmode : x.mode = .toNearestEven ∨ x.prec ≤ 106) :
    (∃ r, newFromBig x = .ok r) ↔ ¬ (x.form = .finite ∧ double.overflowAt - 2 ^ (917 : ℤ) ≤ x.mag) := by
  cases hf : x.form with
  | zero => rw [newFromBig_zero hf]; simp
  | inf => rw [newFromBig_inf hf]; simp
  | finite =>
    obtain ⟨h1, h2⟩ := newFromBig_spec hx hf hmode
    constructor
    · rintro ⟨r, hr⟩ ⟨-, hc⟩
      rw [h1 hc] at hr; exact absurd hr (by simp)
    · intro hc
      obtain ⟨v, high, low, rh, h3, -⟩ := h2 (by by_contra h; exact hc ⟨rfl, not_lt.1 h⟩)
      exact ⟨_, h3⟩

example := C30_partial Sample.x Sample.x_wf (.inr (by decide))

/-- C30, the argument afterwards: zeros and infinities are left alone; a finite argument is left with precision 106 and mode
ToNearestEven, within one unit in its 106th place, and is left as it was exactly if it was already like that. -/
theorem C30_float128ppc_argument (x : BigFloat) (hx : x.WF) {r : Float × Accuracy} {x' : BigFloat}
    (h : newFromBig x = .ok (r, x')) :
    (x.form ≠ .finite → x' = x) ∧
    (x.form = .finite → x'.form = .finite ∧ x'.neg = x.neg ∧ x'.prec = 106 ∧ x'.mode = .toNearestEven ∧ x'.acc = .exact ∧
      |x.mag - x'.mag| < 2 ^ (x.exp - 106)) ∧
    (x.form = .finite → (x' = x ↔ x.prec = 106 ∧ x.mode = .toNearestEven ∧ x.acc = .exact)) := by
  cases hf : x.form with
  | zero => rw [newFromBig_zero hf] at h; simp_all
  | inf => rw [newFromBig_inf hf] at h; simp_all
  | finite =>
    have hx' : x' = prepared x ∧ (prepared x).form = .finite := by
      obtain ⟨p1, p2, p3, p4⟩ := prepared_any hx hf
      rcases p4 with ⟨f, w, -⟩ | ⟨f, -⟩
      · refine ⟨?_, f⟩
        by_cases ho : double.overflowAt ≤ (prepared x).mag
        · rw [newFromBig_panic hx hf (Or.inr ⟨f, ho⟩)] at h; exact absurd h (by simp)
        · obtain ⟨high, low, rh, s1, -⟩ := split_spec w f p2 ho
          rw [newFromBig_finite_eq hf] at h
          change split (prepared x) = _ at h
          rw [s1] at h
          simp only [Except.ok.injEq, Prod.mk.injEq] at h
          exact h.2.symm
      · rw [newFromBig_panic hx hf (Or.inl f)] at h; exact absurd h (by simp)
    obtain ⟨rfl, hpf⟩ := hx'
    obtain ⟨p1, p2, p3, p4⟩ := prepared_any hx hf
    refine ⟨fun hc => absurd rfl hc, fun _ => ⟨hpf, p1, p2, p3, rfl, ?_⟩, fun _ => ⟨fun e => ?_, ?_⟩⟩
    · rcases p4 with ⟨-, -, m, -⟩ | ⟨f, -⟩
      · exact m
      · rw [f] at hpf; exact absurd hpf (by decide)
    · have : (prepared x).acc = .exact := rfl
      rw [e] at p2 p3 this; exact ⟨p2, p3, this⟩
    · rintro ⟨a, b, c⟩
      unfold prepared precision
      rw [BigFloat.setPrec_widen (by norm_num) (by decide) a.le]
      unfold BigFloat.setMode
      rw [← a, ← b, ← c]

example : twoTo1024.WF ∧ newFromBig twoTo1024 = .error .errNaN := ⟨twoTo1024_wf, by decide +kernel⟩
example : ∃ r x', newFromBig (onePlus .toNearestEven) = .ok (r, x') :=
  ⟨(⟨0x3FF0000000000000, 0⟩, .exact), ⟨106, .toNearestEven, .exact, .finite, false, 2 ^ 105, 1⟩, by decide +kernel⟩

/-! ### C31 -/

/-- C31, full statement (false, see below): the constants denote what they say, and special values of `big.Float` and
float64 come back as themselves. -/
def C31_full : Prop :=
  (∃ x, Inf.big = .ok (x, false) ∧ x.datum = .inf false) ∧ (∃ x, NegInf.big = .ok (x, false) ∧ x.datum = .inf true) ∧
  (∃ x, Zero.big = .ok (x, false) ∧ x.datum = .num false 0) ∧ (∃ x, NegZero.big = .ok (x, false) ∧ x.datum = .num true 0) ∧
  (∃ x, NaN.big = .ok (x, true) ∧ x.datum = .num false 0) ∧ (∃ x, NegNaN.big = .ok (x, true) ∧ x.datum = .num true 0) ∧
  (∀ x : BigFloat, x.WF → x.form ≠ .finite → ∃ f y, newFromBig x = .ok ((f, .exact), x) ∧ f.big = .ok (y, false) ∧
    y.datum = x.datum) ∧
  (∀ x : F64, (∀ s m, double.decode x.toNat = .num s m → m = 0) → ∃ f y acc, newFromFloat64 x = .ok (f, .exact) ∧
    f.float64 = .ok (y, acc) ∧ double.decode y.toNat = double.decode x.toNat)

/-- C31 is false: `NegInf` is the positive infinity. -/
theorem C31_false : ¬ C31_full := by
  rintro ⟨-, ⟨x, h1, h2⟩, -⟩
  have h3 : NegInf.big = .ok (⟨106, .toNearestEven, .exact, .inf, false, 0, 0⟩, false) := by decide +kernel
  rw [h3] at h1
  simp only [Except.ok.injEq, Prod.mk.injEq] at h1
  rw [← h1.1] at h2
  simp [BigFloat.datum] at h2

/-- C31: `NegInf` and `Inf` are the same value, so `NewFromBig(-Inf)` is `+Inf`. -/
theorem C31_false_negInf : NegInf = Inf ∧ ∀ x : BigFloat, x.form = .inf → newFromBig x = .ok ((Inf, .exact), x) := by
  have h : NegInf = Inf := by decide
  refine ⟨h, fun x hx => ?_⟩
  rw [newFromBig_inf hx, h, ite_self]

/-- C31: the sign of a NaN is lost by `Big` and `Float64`: every NaN, `NegNaN` included, comes back positive. -/
theorem C31_false_nan (f : Float) (h : f.isNaN = true) :
    ∃ x, f.big = .ok (x, true) ∧ x.datum = .num false 0 ∧ f.float64 = .ok (F64.nan, .exact) :=
  ⟨big0, big_nan h, rfl, by rw [float64_of_big (big_nan h)]; rfl⟩

example := C31_false_nan NegNaN (by decide)

/-- C31, what holds: all constants but `NegInf` (and the sign of `NegNaN`), both zeros and `+Inf` through `NewFromBig`, and
through `NewFromFloat64` the zeros and infinities, and the NaNs up to the sign that `Float64` reports. Missing, because
false: `NegInf`, `NewFromBig(-Inf)`, and the sign of NaNs. -/
theorem C31_partial :
    (∃ x, Inf.big = .ok (x, false) ∧ x.datum = .inf false) ∧
    (∃ x, Zero.big = .ok (x, false) ∧ x.datum = .num false 0) ∧ (∃ x, NegZero.big = .ok (x, false) ∧ x.datum = .num true 0) ∧
    (∃ x, NaN.big = .ok (x, true) ∧ x.datum = .num false 0) ∧ (∃ x, NegNaN.big = .ok (x, true)) ∧
    double.decode NegNaN.high.toNat = .nan true ∧
    (∀ x : BigFloat, x.datum = .inf false ∨ (∃ s, x.form = .zero ∧ x.neg = s) → ∃ f y, newFromBig x = .ok ((f, .exact), x) ∧
      f.big = .ok (y, false) ∧ y.datum = x.datum) ∧
    (∀ x : F64, (∀ s, double.decode x.toNat ≠ .nan s) → newFromFloat64 x = .ok (newFromBits x 0, .exact) ∧
      (newFromBits x 0).float64 = .ok (x, .exact)) ∧
    (∀ (x : F64) (s : Bool), double.decode x.toNat = .nan s →
      newFromFloat64 x = .ok (if s then NegNaN else NaN, .exact) ∧
      double.decode (if s then NegNaN else NaN).high.toNat = .nan s) := by
  have hi : Inf.big = .ok (⟨106, .toNearestEven, .exact, .inf, false, 0, 0⟩, false) := by decide +kernel
  have hz : Zero.big = .ok (⟨106, .toNearestEven, .exact, .zero, false, 0, 0⟩, false) := by decide +kernel
  have hnz : NegZero.big = .ok (⟨106, .toNearestEven, .exact, .zero, true, 0, 0⟩, false) := by decide +kernel
  have dn : double.decode NaN.high.toNat = .nan false := by
    show double.decode 0x7FF8000000000001 = _
    norm_num [Format.decode, double]
  have dnn : double.decode NegNaN.high.toNat = .nan true := by
    show double.decode 0xFFF8000000000001 = _
    norm_num [Format.decode, double]
  refine ⟨⟨_, hi, rfl⟩, ⟨_, hz, rfl⟩, ⟨_, hnz, rfl⟩, ⟨big0, big_nan (by decide), rfl⟩, ⟨big0, big_nan (by decide)⟩, dnn, ?_, ?_, ?_⟩
  · rintro x (h | ⟨s, h1, h2⟩)
    · obtain ⟨h1, h2⟩ := BigFloat.datum_inf h
      refine ⟨Inf, _, ?_, hi, by rw [h]; rfl⟩
      rw [newFromBig_inf h2, h1]; rfl
    · rw [newFromBig_zero h1, h2]
      cases s
      · exact ⟨Zero, _, rfl, hz, by unfold BigFloat.datum; rw [h1, h2]⟩
      · exact ⟨NegZero, _, rfl, hnz, by unfold BigFloat.datum; rw [h1, h2]⟩
  · exact C28_float128ppc_float64
  · intro x s h
    refine ⟨?_, by cases s <;> [exact dn; exact dnn]⟩
    rw [newFromFloat64_nan ((isNaN64_iff x).2 ⟨s, h⟩), signbit_of h]; rfl

-- hypotheses met: a signalling NaN with a payload, and a negative zero
example : double.decode (0xFFF4000000000123 : F64).toNat = .nan true := by
  show double.decode 0xFFF4000000000123 = _
  norm_num [Format.decode, double]
example : newFromFloat64 0xFFF4000000000123 = .ok (NegNaN, .exact) ∧ NegNaN.float64 = .ok (0x7FF8000000000001, .exact) := by
  decide +kernel

/-! ### C32 -/

/-- A canonical pair of finite doubles: `high` is the double nearest to `high + low`, and the sum has at most 106 bits. -/
def Canonical (f : Float) : Prop :=
  ∃ s₁ m₁ s₂ m₂, double.decode f.high.toNat = .num s₁ m₁ ∧ double.decode f.low.toNat = .num s₂ m₂ ∧
    (signed s₁ m₁ + signed s₂ m₂ = 0 → m₁ = 0) ∧
    (signed s₁ m₁ + signed s₂ m₂ ≠ 0 →
      double.RoundsTo (decide (signed s₁ m₁ + signed s₂ m₂ < 0)) |signed s₁ m₁ + signed s₂ m₂| f.high.toNat) ∧
    ∃ k e : ℤ, |k| < 2 ^ 106 ∧ signed s₁ m₁ + signed s₂ m₂ = k * (2 : ℚ) ^ e

/-- C32, full statement (false, see below). -/
def C32_full : Prop := ∀ f : Float, Canonical f → ∃ x x', f.big = .ok (x, false) ∧ newFromBig x = .ok ((f, .exact), x')

theorem canonical_low_zero (z : F64) (s : Bool) (hz : double.decode z.toNat = .num s 0) : Canonical ⟨0x3FF0000000000000, z⟩ := by
  have h1 : double.decode (⟨0x3FF0000000000000, z⟩ : Float).high.toNat = .num false 1 := double_one
  have hv : signed false 1 + signed s 0 = 1 := by cases s <;> simp [signed]
  refine ⟨false, 1, s, 0, h1, hz, by rw [hv]; norm_num, fun _ => ?_, 1, 0, by norm_num, by rw [hv]; norm_num⟩
  rw [hv]
  unfold Format.RoundsTo
  have := one_lt_overflow
  rw [if_neg (by rw [abs_one]; linarith)]
  refine ⟨1, ?_, ?_, ?_⟩
  · rw [h1]; simp
  · intro c' s' r' _; rw [abs_one, sub_self, abs_zero]; exact abs_nonneg _
  · intro c' s' r' _ _ _; show 0x3FF0000000000000 % 2 = 0; norm_num

/-- C32 is false: the pair `(1, -0)` comes back as `(1, +0)`. -/
theorem C32_false : ¬ C32_full := by
  intro h
  obtain ⟨x, x', h1, h2⟩ := h ⟨0x3FF0000000000000, 0x8000000000000000⟩ (canonical_low_zero _ true (by
    show double.decode 0x8000000000000000 = _
    exact (roundsTo_zero double (by decide) true).1))
  have e1 : Float.big ⟨0x3FF0000000000000, 0x8000000000000000⟩ =
    .ok (⟨106, .toNearestEven, .exact, .finite, false, 2 ^ 52, 1⟩, false) := by decide +kernel
  rw [e1] at h1
  simp only [Except.ok.injEq, Prod.mk.injEq] at h1
  rw [← h1.1] at h2
  have e2 : ∃ y, newFromBig ⟨106, .toNearestEven, .exact, .finite, false, 2 ^ 52, 1⟩ =
    .ok ((⟨0x3FF0000000000000, 0⟩, .exact), y) :=
    ⟨⟨106, .toNearestEven, .exact, .finite, false, 2 ^ 52, 1⟩, by decide +kernel⟩
  obtain ⟨y, e2⟩ := e2
  rw [e2] at h2
  simp at h2

/-- C32, for every canonical pair: the high half comes back, and so does the low half unless it is `-0`, which becomes `+0`.
Missing, because false: `low = -0`. -/
theorem C32_partial (f : Float) (h : Canonical f) :
    ∃ x x', f.big = .ok (x, false) ∧
      newFromBig x = .ok ((newFromBits f.high (if f.low = 0x8000000000000000 then 0 else f.low), .exact), x') := by
  obtain ⟨s₁, m₁, s₂, m₂, h1, h2, hz, hn, k, e, hk, hv⟩ := h
  obtain ⟨x, hb, e2, e3⟩ := big_finite h1 h2
  have hm2 : 0 ≤ m₂ := by
    obtain ⟨n, -, h, -⟩ := double.code_of_decode h2
    rw [h]; exact double.magc_nonneg n
  have hnegz : ∀ (y : F64) (s : Bool), double.decode y.toNat = .num s 0 → y = if s then 0x8000000000000000 else 0 := by
    intro y s hy
    have : double.decode (if s then (0x8000000000000000 : F64) else 0).toNat = .num s 0 := by
      cases s
      · exact (roundsTo_zero double (by decide) false).1
      · exact (roundsTo_zero double (by decide) true).1
    exact decode_inj64 (by rw [hy, this]) (by rw [hy]; simp)
  refine ⟨x, ?_⟩
  by_cases h0 : signed s₁ m₁ + signed s₂ m₂ = 0
  · obtain ⟨f1, n1, -⟩ := e2 h0
    have m1 := hz h0
    have hl : m₂ = 0 := by
      rw [m1] at h0
      have : signed s₁ 0 = 0 := by unfold signed; split <;> simp
      rw [this, zero_add] at h0
      have := BigFloat.signed_abs (s := s₂) hm2
      rw [h0, abs_zero] at this; exact this.symm
    rw [m1] at h1
    rw [hl] at h2
    have g1 := hnegz _ _ h1
    have g2 := hnegz _ _ h2
    refine ⟨x, hb, ?_⟩
    rw [newFromBig_zero f1, n1, g1, g2]
    cases s₁ <;> cases s₂ <;> rfl
  · have hr := e3 h0
    obtain ⟨hsv, -⟩ := hr.exact (by decide) hk hv
    have hrt := hn h0
    have hwf := hr.2.2.1
    have hf := hr.2.2.2.1
    have hneg := hr.2.2.2.2.1
    have hprec : x.prec = 106 := hr.1
    have hprep : prepared x = { x with acc := .exact } := by
      have hmo : x.mode = .toNearestEven := hr.2.1
      unfold prepared precision
      rw [BigFloat.setPrec_widen (by norm_num) (by decide) hprec.le]
      unfold BigFloat.setMode
      rw [← hprec, ← hmo]
    have hxm := BigFloat.mag_pos (hwf.mant_pos hf)
    have habs : |x.sval| = x.mag := by rw [BigFloat.sval_finite hf, BigFloat.signed_abs hxm.le]
    obtain ⟨n1, hn1, hm1, -⟩ := double.code_of_decode h1
    have hno : ¬ double.overflowAt ≤ (prepared x).mag := by
      intro hc
      rw [hprep] at hc
      have hc' : double.overflowAt ≤ x.mag := hc
      rw [← habs, hsv] at hc'
      unfold Format.RoundsTo at hrt
      rw [if_pos hc', h1] at hrt
      exact absurd hrt (by simp)
    have hpw : (prepared x).WF := by
      rw [hprep]; exact ⟨hwf.prec_le, hwf.mant_pos, hwf.exp_ge, hwf.exp_le, hwf.prec_pos, hwf.fits⟩
    obtain ⟨high, low, rh, t1, t2, t3, t4, t5, -⟩ := split_spec hpw (by rw [hprep]; exact hf) (by rw [hprep]; exact hprec) hno
    have b1 : (prepared x).neg = decide (signed s₁ m₁ + signed s₂ m₂ < 0) := by rw [hprep]; exact hneg
    have b2 : (prepared x).mag = |signed s₁ m₁ + signed s₂ m₂| := by rw [hprep, ← hsv, habs]; rfl
    have b3 : (prepared x).sval = signed s₁ m₁ + signed s₂ m₂ := by rw [hprep, ← hsv]; rfl
    rw [b1, b2] at t3
    have hhd : double.decode high.toNat = double.decode f.high.toNat := RoundsTo.unique (by decide) t3 hrt
    have hhigh : high = f.high := decode_inj64 hhd (by rw [hhd, h1]; simp)
    rw [hhd, h1] at t2
    injection t2 with u1 u2
    rw [← u1, ← u2, b3, add_sub_cancel_left] at t4 t5
    refine ⟨prepared x, hb, ?_⟩
    rw [newFromBig_finite_eq hf]
    change split (prepared x) = _
    rw [t1, hhigh]
    have hlow : low = if f.low = 0x8000000000000000 then 0 else f.low := by
      by_cases h00 : signed s₂ m₂ = 0
      · have : m₂ = 0 := by
          have := BigFloat.signed_abs (s := s₂) hm2
          rw [h00, abs_zero] at this; exact this.symm
        rw [this] at h2
        rw [t4 h00, hnegz _ _ h2]
        cases s₂ <;> rfl
      · have hm2p : 0 < m₂ := by
          rcases hm2.eq_or_lt with h | h
          · exfalso; apply h00; rw [← h]; unfold signed; split <;> simp
          · exact h
        have v1 := t5 h00
        rw [BigFloat.signed_abs hm2] at v1
        have v2 : decide (signed s₂ m₂ < 0) = s₂ := by
          rw [Bool.eq_iff_iff, decide_eq_true_eq, BigFloat.signed_neg_iff hm2p]
        rw [v2] at v1
        unfold Format.RoundsTo at v1
        obtain ⟨n2, hn2, hmm2, -⟩ := double.code_of_decode h2
        rw [if_neg (by rw [hmm2]; exact not_le.2 (magc_lt_overflow hn2))] at v1
        obtain ⟨r, w1, w2, -⟩ := v1
        have w3 := w2 _ _ _ h2
        rw [sub_self, abs_zero, abs_nonpos_iff, sub_eq_zero] at w3
        have w4 : m₂ = r := by
          unfold signed at w3; split at w3
          · exact neg_injective w3
          · exact w3
        rw [← w4] at w1
        have w5 : low = f.low := decode_inj64 (by rw [w1, h2]) (by rw [w1]; simp)
        rw [if_neg ?_, w5]
        intro hc
        rw [hc] at h2
        have : double.decode (0x8000000000000000 : F64).toNat = .num true 0 := (roundsTo_zero double (by decide) true).1
        rw [this] at h2
        injection h2 with _ h2
        linarith
    rw [hlow]; rfl

example : Canonical ⟨0x3FF0000000000000, 0⟩ :=
  canonical_low_zero 0 false (roundsTo_zero double (by decide) false).1
-- 1 + 2^-60
example : ∃ x, Float.big ⟨0x3FF0000000000000, 0x3C30000000000000⟩ = .ok (x, false) ∧
    ∃ x', newFromBig x = .ok ((⟨0x3FF0000000000000, 0x3C30000000000000⟩, .exact), x') :=
  ⟨⟨106, .toNearestEven, .exact, .finite, false, 2 ^ 105 + 2 ^ 45, 1⟩, by decide +kernel,
   ⟨106, .toNearestEven, .exact, .finite, false, 2 ^ 105 + 2 ^ 45, 1⟩, by decide +kernel⟩

/-! ### C50 -/

/-- C50, full statement (false, see below): `Float64` and `Float32` are the correctly rounded sum of the halves. -/
def C50_full : Prop := ∀ f : Float, ∀ s₁ m₁ s₂ m₂, double.decode f.high.toNat = .num s₁ m₁ → double.decode f.low.toNat = .num s₂ m₂ →
  signed s₁ m₁ + signed s₂ m₂ ≠ 0 →
  (∃ r acc, f.float64 = .ok (r, acc) ∧
    double.RoundsTo (decide (signed s₁ m₁ + signed s₂ m₂ < 0)) |signed s₁ m₁ + signed s₂ m₂| r.toNat) ∧
  (∃ r acc, f.float32 = .ok (r, acc) ∧
    single.RoundsTo (decide (signed s₁ m₁ + signed s₂ m₂ < 0)) |signed s₁ m₁ + signed s₂ m₂| r.toNat)

/-- C50 is false for `Float64`: `(1 + 2^-52) + (2^-53 - 2^-106)`, a canonical pair, gives `1 + 2^-51`, because the sum is
rounded twice. -/
theorem C50_false : ¬ C50_full := by
  intro h
  have h1 : double.decode (0x3FF0000000000001 : F64).toNat = .num false (1 + 2 ^ (-52 : ℤ)) := by
    show double.decode 0x3FF0000000000001 = _
    norm_num [Format.decode, double, Format.bias]
  have h2 : double.decode (0x3C9FFFFFFFFFFFFF : F64).toNat = .num false (2 ^ (-53 : ℤ) - 2 ^ (-106 : ℤ)) := by
    show double.decode 0x3C9FFFFFFFFFFFFF = _
    norm_num [Format.decode, double, Format.bias]
  have h3 : double.decode (0x3FF0000000000002 : F64).toNat = .num false (1 + 2 ^ (-51 : ℤ)) := by
    show double.decode 0x3FF0000000000002 = _
    norm_num [Format.decode, double, Format.bias]
  obtain ⟨⟨r, acc, hr, hrt⟩, -⟩ := h ⟨0x3FF0000000000001, 0x3C9FFFFFFFFFFFFF⟩ _ _ _ _ h1 h2 (by norm_num [signed])
  have hev : Float.float64 ⟨0x3FF0000000000001, 0x3C9FFFFFFFFFFFFF⟩ = .ok (0x3FF0000000000002, .above) := by decide +kernel
  rw [hev] at hr
  simp only [Except.ok.injEq, Prod.mk.injEq] at hr
  rw [← hr.1] at hrt
  unfold Format.RoundsTo at hrt
  have := one_lt_overflow
  rw [if_neg (by
    refine not_le.2 (lt_of_le_of_lt ?_ this)
    norm_num [signed, abs_of_pos])] at hrt
  obtain ⟨r', hd, hmin, -⟩ := hrt
  rw [h3] at hd
  injection hd with a b
  have h4 := hmin _ _ _ h1
  rw [← a, ← b] at h4
  norm_num [signed, abs_of_pos, abs_of_neg] at h4

/-- C50 is false for `Float32` for the same reason: `(1 + 2^-24) + 2^-200`
gives 1 although `1 + 2^-23` is nearer. -/
theorem C50_false_float32 : ∃ (f : Float) (s₁ : Bool) (m₁ : ℚ) (s₂ : Bool) (m₂ : ℚ), double.decode f.high.toNat = .num s₁ m₁ ∧ double.decode f.low.toNat = .num s₂ m₂ ∧
    ∃ r acc, f.float32 = .ok (r, acc) ∧ ∃ s m s' m', single.decode r.toNat = .num s m ∧
      ∃ c, single.decode c = .num s' m' ∧
        |signed s₁ m₁ + signed s₂ m₂ - signed s' m'| < |signed s₁ m₁ + signed s₂ m₂ - signed s m| := by
  refine ⟨⟨0x3FF0000010000000, 0x3370000000000000⟩, false, 1 + 2 ^ (-24 : ℤ), false, 2 ^ (-200 : ℤ), ?_, ?_, 0x3F800000, .below,
    by decide +kernel, false, 1, false, 1 + 2 ^ (-23 : ℤ), ?_, 0x3F800001, ?_, ?_⟩
  · show double.decode 0x3FF0000010000000 = _
    norm_num [Format.decode, double, Format.bias]
  · show double.decode 0x3370000000000000 = _
    norm_num [Format.decode, double, Format.bias]
  · show single.decode 0x3F800000 = _
    norm_num [Format.decode, single, Format.bias]
  · norm_num [Format.decode, single, Format.bias]
  · norm_num [signed, abs_of_pos, abs_of_neg]

/-- C50, for sums of at most 106 bits: `Float64` and `Float32` are correctly rounded, with the true accuracy. Missing, because
false: sums of more bits, which are rounded twice. -/
theorem C50_partial (f : Float) {s₁ s₂ : Bool} {m₁ m₂ : ℚ} (h1 : double.decode f.high.toNat = .num s₁ m₁)
    (h2 : double.decode f.low.toNat = .num s₂ m₂) {k e : ℤ} (hk : |k| < 2 ^ 106)
    (hv : signed s₁ m₁ + signed s₂ m₂ = k * (2 : ℚ) ^ e) :
    ∃ s m, signed s m = signed s₁ m₁ + signed s₂ m₂ ∧
      (∃ r acc, f.float64 = .ok (r, acc) ∧ Converts64 (.num s m) r acc) ∧
      (∃ r acc, f.float32 = .ok (r, acc) ∧ Converts32 (.num s m) r acc) := by
  obtain ⟨x, nan, hb, hs⟩ := C27_partial f (by intro s; rw [h1]; simp)
  obtain ⟨y, s, m, hb', hd, hsum, -⟩ := C27_float128ppc_exact f h1 h2 hk hv
  rw [h1, h2] at hs
  obtain ⟨rfl, -, -, hwf, -⟩ := hs
  rw [hb] at hb'
  simp only [Except.ok.injEq, Prod.mk.injEq, and_true] at hb'
  subst hb'
  have hdec : Decoded (.num s m) x false := ⟨rfl, hd⟩
  refine ⟨s, m, hsum, ⟨_, _, float64_of_big hb, ?_⟩, ⟨_, _, float32_of_big hb, ?_⟩⟩
  · obtain ⟨-, -, a, b⟩ := toF64_spec hwf hdec
    exact ⟨a s m rfl, b (by simp)⟩
  · obtain ⟨-, -, a, b⟩ := toF32_spec hwf hdec
    exact ⟨a s m rfl, b (by simp)⟩

-- 11/8 twice, with a sum of -11/4
example := C50_partial ⟨0xBFF6000000000000, 0xBFF6000000000000⟩ Sample.x_double Sample.x_double (k := -11) (e := -2) (by norm_num) (by norm_num [signed])

end GoFloat.Float128ppc
