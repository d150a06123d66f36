import Verif.Model.Float128ppc
import Verif.Proofs.BigAdd
import Verif.Proofs.TruncGen
import Verif.Proofs.RoundAny
import Verif.Proofs.Fields
/-
What the functions of package float128ppc compute.
-/
namespace GoFloat
open Spec

theorem double_facts : double.qmin = -1074 ∧ double.bias = 1023 ∧ double.t = 52 ∧ double.w = 11 := by
  refine ⟨by decide, by decide, rfl, rfl⟩

/-- A finite double is a multiple of 2^-1074 and less than 2^1024. -/
theorem double_multiple {c : ℕ} {s : Bool} {m : ℚ} (h : double.decode c = .num s m) :
    ∃ N : ℕ, m = N * (2 : ℚ) ^ (-1074 : ℤ) ∧ m < 2 ^ (1024 : ℤ) := by
  obtain ⟨n, hn, hm, -, -⟩ := double.code_of_decode h
  obtain ⟨k, N, hk, hN1, hN2⟩ := double.code_split n
  have h1 := double.magc_eq hN1.le hN2
  rw [← hk, ← hm, double_facts.1] at h1
  refine ⟨N * 2 ^ k, ?_, ?_⟩
  · rw [h1, zpow_add₀ (by norm_num), Nat.cast_mul, Nat.cast_pow, zpow_natCast, Nat.cast_ofNat]; ring
  · have := magc_lt_max double (by decide) hn
    rw [← hm, double_facts.2.1] at this
    exact this

namespace BigFloat

/-- A number with at most `p` bits is not changed by rounding to `p` bits. -/
theorem RoundedTo.exact {z r : BigFloat} {v : ℚ} (hp : 1 ≤ z.prec) (h : RoundedTo z v r) {k q : ℤ}
    (hk : |k| < 2 ^ z.prec) (hv : v = k * (2 : ℚ) ^ q) : r.sval = v ∧ r.acc = .exact := by
  have h1 := (h.spec hp).2.1 k q hk
  rw [← hv, sub_self, abs_zero, abs_nonpos_iff, sub_eq_zero] at h1
  refine ⟨h1.symm, ?_⟩
  obtain ⟨-, -, hwf, hf, -, e, -, -, -, -, hacc⟩ := h
  rw [hacc]
  have : r.mag = |v| := by
    rw [h1, sval_finite hf, signed_abs (mag_pos (hwf.mant_pos hf)).le]
  unfold accOf; rw [if_pos this]

theorem sval_of_datum {x : BigFloat} (hx : x.WF) {s : Bool} {m : ℚ} (h : x.datum = .num s m) :
    x.sval = signed s m ∧ x.form ≠ .inf ∧ x.neg = s := by
  obtain ⟨h1, h2, h3⟩ := datum_inj_form hx h
  by_cases hm : m = 0
  · refine ⟨by rw [sval_zero (h2 hm), hm]; unfold signed; split <;> simp, by rw [h2 hm]; simp, h1⟩
  · refine ⟨by rw [sval_finite (h3 hm).1, h1, (h3 hm).2], by rw [(h3 hm).1]; simp, h1⟩

theorem RoundedTo.datum {z r : BigFloat} {v : ℚ} (h : RoundedTo z v r) : r.datum = .num (decide (v < 0)) |r.sval| := by
  obtain ⟨-, -, hwf, hf, hneg, -⟩ := h
  rw [datum_finite hf, hneg, sval_finite hf, signed_abs (mag_pos (hwf.mant_pos hf)).le]

theorem signed_eq_mul (s : Bool) (m : ℚ) : signed s m = (if s then -1 else 1) * m := by
  unfold signed; cases s <;> simp

/-- A multiple of `2^q` that is not zero is at least `2^q` in magnitude. -/
theorem multiple_ge {v : ℚ} {q : ℤ} {J : ℤ} (hv : v = J * (2 : ℚ) ^ q) (h : v ≠ 0) : (2 : ℚ) ^ q ≤ |v| := by
  have hq : (0 : ℚ) < 2 ^ q := by positivity
  have hJ : J ≠ 0 := by rintro rfl; simp at hv; exact h hv
  have h1 : (1 : ℚ) ≤ |(J : ℚ)| := by exact_mod_cast Int.one_le_abs hJ
  rw [hv, abs_mul, abs_of_pos hq]
  nlinarith

theorem minExp_le {q : ℤ} (h : -1000000 ≤ q) : (2 : ℚ) ^ MinExp ≤ 2 ^ q :=
  zpow_le_zpow_right₀ (by norm_num) (by unfold MinExp; omega)

theorem lt_maxExp {v : ℚ} {q : ℤ} (hv : v ≤ 2 ^ q) (h : q ≤ 1000000) : v < 2 ^ (MaxExp - 1) :=
  hv.trans_lt (zpow_lt_zpow_right₀ (by norm_num) (by unfold MaxExp; omega))

end BigFloat

namespace Float128ppc

/-- The variables of precision 106 prepared by the functions. -/
def big0 : BigFloat := { BigFloat.new with prec := 106 }

theorem zero106 : (BigFloat.setPrec { BigFloat.new with prec := 53 } precision) = big0 := by rfl
theorem zero106' : BigFloat.setMode (BigFloat.setPrec { BigFloat.new with prec := 53 } precision) .toNearestEven = big0 := by rfl

/-- A double as a `big.Float` of precision 106. -/
theorem newFloat106 {x : F64} (h : F64.isNaN x = false) :
    ∃ y : BigFloat, newFloat x = .ok y ∧ (y.setPrec precision).datum = double.decode x.toNat ∧ (y.setPrec precision).WF ∧
      (y.setPrec precision).prec = 106 ∧ (y.setPrec precision).mode = .toNearestEven ∧ (y.setPrec precision).acc = .exact ∧
      (y.setPrec precision).setMode .toNearestEven = y.setPrec precision := by
  obtain ⟨y, h1, h2, h3, h4, h5, h6⟩ := newFloat_spec x h
  have hw : y.setPrec precision = { y with prec := 106, acc := .exact } :=
    BigFloat.setPrec_widen (p := 106) (by norm_num) (by decide) (by omega)
  refine ⟨y, h1, ?_⟩
  rw [hw]
  refine ⟨h2, ?_, rfl, h5, rfl, ?_⟩
  · have := h3.widen (p := 106) (by decide) (by omega) y.mode .exact
    exact this
  · unfold BigFloat.setMode; rw [h5]

theorem isNaN_false_of_num {x : F64} {s : Bool} {m : ℚ} (h : double.decode x.toNat = .num s m) : F64.isNaN x = false := by
  rw [Bool.eq_false_iff, Ne, isNaN64_iff, h]; simp
theorem isNaN_false_of_inf {x : F64} {s : Bool} (h : double.decode x.toNat = .inf s) : F64.isNaN x = false := by
  rw [Bool.eq_false_iff, Ne, isNaN64_iff, h]; simp

/-- The end of `Big`, with the sum `r` at hand. -/
theorem big_of_add {f : Float} {h l r : BigFloat} (hn1 : F64.isNaN f.high = false) (hn2 : F64.isNaN f.low = false)
    (hh : newFloat f.high = .ok h) (hl : newFloat f.low = .ok l)
    (hr : big0.add (h.setPrec precision) (l.setPrec precision) = .ok r) :
    f.big = .ok (if r.cmp big0 = .eq ∧ F64.signbit f.high then (if !r.signbit then r.negSelf else r) else r, false) := by
  unfold Float.big
  rw [newFloat_zero]
  have hnan : f.isNaN = false := by unfold Float.isNaN; rw [hn1, hn2]; rfl
  simp only [bind, Except.bind, pure, Except.pure, hnan, hh, hl, zero106, Bool.false_eq_true, if_false]
  have h0 : BigFloat.setMode big0 .toNearestEven = big0 := rfl
  rw [h0, hr]
  simp only
  split <;> rfl

theorem big_panic {f : Float} {h l : BigFloat} {e : Panic} (hn1 : F64.isNaN f.high = false) (hn2 : F64.isNaN f.low = false)
    (hh : newFloat f.high = .ok h) (hl : newFloat f.low = .ok l)
    (hr : big0.add (h.setPrec precision) (l.setPrec precision) = .error e) : f.big = .error e := by
  unfold Float.big
  rw [newFloat_zero]
  have hnan : f.isNaN = false := by unfold Float.isNaN; rw [hn1, hn2]; rfl
  simp only [bind, Except.bind, pure, Except.pure, hnan, hh, hl, zero106, Bool.false_eq_true, if_false]
  have h0 : BigFloat.setMode big0 .toNearestEven = big0 := rfl
  rw [h0, hr]

theorem signbit_of {x : F64} {d : Datum} (h : double.decode x.toNat = d) : F64.signbit x = d.sign := by
  rw [signbit64_eq, h]

/-- `Big` of two finite halves. -/
theorem big_finite {f : Float} {s1 s2 : Bool} {m1 m2 : ℚ} (h1 : double.decode f.high.toNat = .num s1 m1)
    (h2 : double.decode f.low.toNat = .num s2 m2) :
    ∃ x, f.big = .ok (x, false) ∧
      (signed s1 m1 + signed s2 m2 = 0 → x.form = .zero ∧ x.neg = s1 ∧ x.acc = .exact ∧ x.prec = 106 ∧ x.mode = .toNearestEven) ∧
      (signed s1 m1 + signed s2 m2 ≠ 0 → BigFloat.RoundedTo big0 (signed s1 m1 + signed s2 m2) x) := by
  have hn1 := isNaN_false_of_num h1
  have hn2 := isNaN_false_of_num h2
  obtain ⟨h, hh, hd, hwf, hp, hmo, hacc, -⟩ := newFloat106 hn1
  obtain ⟨l, ll, ld, lwf, lp, lmo, lacc, -⟩ := newFloat106 hn2
  rw [h1] at hd
  rw [h2] at ld
  obtain ⟨sh, fh, nh⟩ := BigFloat.sval_of_datum hwf hd
  obtain ⟨sl, fl, nl⟩ := BigFloat.sval_of_datum lwf ld
  obtain ⟨N1, e1, b1⟩ := double_multiple h1
  obtain ⟨N2, e2, b2⟩ := double_multiple h2
  have hp1 : (0 : ℚ) < 2 ^ (-1074 : ℤ) := by positivity
  have a1 : |signed s1 m1| < 2 ^ (1024 : ℤ) := by rw [BigFloat.signed_abs (by rw [e1]; exact mul_nonneg (Nat.cast_nonneg _) hp1.le)]; exact b1
  have a2 : |signed s2 m2| < 2 ^ (1024 : ℤ) := by rw [BigFloat.signed_abs (by rw [e2]; exact mul_nonneg (Nat.cast_nonneg _) hp1.le)]; exact b2
  have hlt : |signed s1 m1 + signed s2 m2| < 2 ^ (1025 : ℤ) := by
    refine (abs_add_le _ _).trans_lt ?_
    rw [show (1025 : ℤ) = 1024 + 1 by norm_num, zpow_add_one₀ (by norm_num)]
    generalize (2 : ℚ) ^ (1024 : ℤ) = P at a1 a2
    linarith
  have hmul : signed s1 m1 + signed s2 m2 =
      (((if s1 then -1 else 1) * (N1 : ℤ) + (if s2 then -1 else 1) * (N2 : ℤ) : ℤ) : ℚ) * 2 ^ (-1074 : ℤ) := by
    rw [BigFloat.signed_eq_mul, BigFloat.signed_eq_mul, e1, e2]
    generalize (2 : ℚ) ^ (-1074 : ℤ) = P
    push_cast
    cases s1 <;> cases s2 <;> simp <;> ring
  obtain ⟨r, hr, r0, r1⟩ := BigFloat.add_spec (z := big0) hwf lwf fh fl (by decide) (by decide) rfl
    (by rw [sh, sl]; intro _ _ hne; exact (BigFloat.minExp_le (by norm_num)).trans (BigFloat.multiple_ge hmul hne))
    (by rw [sh, sl]; exact BigFloat.lt_maxExp hlt.le (by norm_num))
  rw [sh, sl, nh, nl] at r0
  rw [sh, sl] at r1
  have hb := big_of_add hn1 hn2 hh ll hr
  have hsb : F64.signbit f.high = s1 := signbit_of h1
  refine ⟨_, hb, fun h0 => ?_, fun h0 => ?_⟩
  · obtain ⟨q1, q2, q3, q4, q5⟩ := r0 h0
    have hcmp : r.cmp big0 = .eq := BigFloat.cmp_zero_zero q1 rfl
    have hsr : r.signbit = r.neg := rfl
    rw [hcmp, hsb, hsr, q5]
    cases s1
    · simp only [Bool.false_eq_true, and_false, if_false]
      exact ⟨q1, by rw [q5]; rfl, q2, q3, q4⟩
    · cases s2
      · simp only [Bool.and_false, Bool.not_false, and_self, if_true]
        exact ⟨q1, by show (!r.neg) = true; rw [q5]; rfl, q2, q3, q4⟩
      · simp only [Bool.and_true, Bool.not_true, and_self, Bool.false_eq_true, if_true, if_false]
        exact ⟨q1, by rw [q5]; rfl, q2, q3, q4⟩
  · have hr1 := r1 h0
    have hcmp : r.cmp big0 ≠ .eq := BigFloat.cmp_zero_finite hr1.2.2.2.1 rfl
    rw [if_neg (by tauto)]
    exact hr1

theorem add_inf_left {x y : BigFloat} (hx : x.form = .inf) (hp : x.prec = 106) (hy : y.form ≠ .inf ∨ y.neg = x.neg) :
    ∃ r, big0.add x y = .ok r ∧ r.form = .inf ∧ r.neg = x.neg ∧ r.prec = 106 ∧ r.acc = .exact ∧ r.mode = .toNearestEven := by
  have hset : ∃ r, BigFloat.set big0 x = r ∧ r.form = .inf ∧ r.neg = x.neg ∧ r.prec = 106 ∧ r.acc = .exact ∧
      r.mode = .toNearestEven := by
    refine ⟨_, rfl, ?_⟩
    unfold BigFloat.set
    rw [if_neg (by decide), hp, if_neg (by decide), hx]
    exact ⟨rfl, rfl, rfl, rfl, rfl⟩
  obtain ⟨r, hr, h⟩ := hset
  refine ⟨r, ?_, h⟩
  unfold BigFloat.add
  rw [if_neg (by decide), hx]
  cases hyf : y.form with
  | inf =>
    rcases hy with hy | hy
    · exact absurd hyf hy
    · simp only [hy, ne_eq, not_true_eq_false, if_false, hr]
  | zero => simp only [hr]
  | finite => simp only [hr]

theorem add_inf_right {x y : BigFloat} (hx : x.form ≠ .inf) (hp : y.prec = 106) (hy : y.form = .inf) :
    ∃ r, big0.add x y = .ok r ∧ r.form = .inf ∧ r.neg = y.neg ∧ r.prec = 106 ∧ r.acc = .exact ∧ r.mode = .toNearestEven := by
  have hset : ∃ r, BigFloat.set big0 y = r ∧ r.form = .inf ∧ r.neg = y.neg ∧ r.prec = 106 ∧ r.acc = .exact ∧
      r.mode = .toNearestEven := by
    refine ⟨_, rfl, ?_⟩
    unfold BigFloat.set
    rw [if_neg (by decide), hp, if_neg (by decide), hy]
    exact ⟨rfl, rfl, rfl, rfl, rfl⟩
  obtain ⟨r, hr, h⟩ := hset
  refine ⟨r, ?_, h⟩
  unfold BigFloat.add
  rw [if_neg (by decide), hy]
  cases hxf : x.form with
  | inf => exact absurd hxf hx
  | zero => simp only [hr]
  | finite => simp only [hr]

theorem cmp_inf {r : BigFloat} (h : r.form = .inf) : r.cmp big0 ≠ .eq := by
  have h1 : r.ord = if r.neg then -2 else 2 := by unfold BigFloat.ord; rw [h]
  have h2 : big0.ord = 0 := rfl
  unfold BigFloat.cmp
  rw [h1, h2]
  cases r.neg <;> simp

/-- `Big` with an infinite half: that infinity, unless the halves are opposite infinities, when it panics. -/
theorem big_infinite {f : Float} (hn1 : F64.isNaN f.high = false) (hn2 : F64.isNaN f.low = false) {s : Bool}
    (hi : double.decode f.high.toNat = .inf s ∨ double.decode f.low.toNat = .inf s) :
    (double.decode f.high.toNat ≠ .inf (!s) → double.decode f.low.toNat ≠ .inf (!s) →
      ∃ x, f.big = .ok (x, false) ∧ x.datum = .inf s ∧ x.prec = 106 ∧ x.acc = .exact ∧ x.mode = .toNearestEven ∧ x.WF) ∧
    (double.decode f.high.toNat = .inf (!s) ∨ double.decode f.low.toNat = .inf (!s) → f.big = .error .errNaN) := by
  obtain ⟨h, hh, hd, hwf, hp, hmo, hacc, -⟩ := newFloat106 hn1
  obtain ⟨l, ll, ld, lwf, lp, lmo, lacc, -⟩ := newFloat106 hn2
  rw [← hd, ← ld] at hi ⊢
  set H := h.setPrec precision
  set L := l.setPrec precision
  have hformInf : ∀ {y : BigFloat}, y.form = .inf → y.datum = .inf y.neg := by
    intro y hy; unfold BigFloat.datum; rw [hy]
  constructor
  · intro ha hb
    have key : ∃ r, big0.add H L = .ok r ∧ r.form = .inf ∧ r.neg = s ∧ r.prec = 106 ∧ r.acc = .exact ∧ r.mode = .toNearestEven := by
      by_cases hHf : H.form = .inf
      · have hHs : H.neg = s := by
          rcases hi with h1 | h1
          · exact (BigFloat.datum_inf h1).1
          · rw [hformInf hHf] at ha
            simp only [ne_eq, Datum.inf.injEq] at ha
            cases hHn : H.neg <;> cases s <;> simp_all
        obtain ⟨r, r1, r2, r3, r4⟩ := add_inf_left (y := L) hHf hp (by
          by_cases hLf : L.form = .inf
          · right
            rw [hformInf hLf] at hb
            simp only [ne_eq, Datum.inf.injEq] at hb
            rw [hHs]
            cases hLn : L.neg <;> cases s <;> simp_all
          · exact Or.inl hLf)
        exact ⟨r, r1, r2, by rw [r3, hHs], r4⟩
      · rcases hi with h1 | h1
        · exact absurd (BigFloat.datum_inf h1).2 hHf
        · obtain ⟨r, r1, r2, r3, r4⟩ := add_inf_right hHf lp (BigFloat.datum_inf h1).2
          exact ⟨r, r1, r2, by rw [r3, (BigFloat.datum_inf h1).1], r4⟩
    obtain ⟨r, r1, r2, r3, r4, r5, r6⟩ := key
    have hbig := big_of_add hn1 hn2 hh ll r1
    rw [if_neg (by have := cmp_inf r2; tauto)] at hbig
    refine ⟨r, hbig, by rw [hformInf r2, r3], r4, r5, r6, ?_⟩
    refine ⟨by rw [r4]; decide, ?_, ?_, ?_, ?_, ?_⟩ <;> (intro hc; rw [r2] at hc; exact absurd hc (by decide))
  · intro hopp
    apply big_panic hn1 hn2 hh ll
    have hboth : H.form = .inf ∧ L.form = .inf ∧ H.neg ≠ L.neg := by
      rcases hi with h1 | h1 <;> rcases hopp with h2 | h2
      · rw [h1] at h2; simp at h2
      · exact ⟨(BigFloat.datum_inf h1).2, (BigFloat.datum_inf h2).2, by
          rw [(BigFloat.datum_inf h1).1, (BigFloat.datum_inf h2).1]; cases s <;> simp⟩
      · exact ⟨(BigFloat.datum_inf h2).2, (BigFloat.datum_inf h1).2, by
          rw [(BigFloat.datum_inf h1).1, (BigFloat.datum_inf h2).1]; cases s <;> simp⟩
      · rw [h1] at h2; simp at h2
    unfold BigFloat.add
    rw [if_neg (by decide), hboth.1, hboth.2.1]
    simp only
    rw [if_pos hboth.2.2]

theorem big_nan {f : Float} (h : f.isNaN = true) : f.big = .ok (big0, true) := by
  unfold Float.big
  rw [newFloat_zero]
  simp only [bind, Except.bind, pure, Except.pure, zero106, h, if_true]
  rfl

theorem isNaN_iff (f : Float) : f.isNaN = true ↔
    (∃ s, double.decode f.high.toNat = .nan s) ∨ (∃ s, double.decode f.low.toNat = .nan s) := by
  unfold Float.isNaN
  rw [Bool.or_eq_true, isNaN64_iff, isNaN64_iff]

/-- The part of `NewFromBig` after the argument has been rounded to 106 bits. -/
def split (x : BigFloat) : Go ((Float × Accuracy) × BigFloat) := do
  let h ← newFloat x.float64.1
  let h := (h.setPrec precision).setMode .toNearestEven
  let l ← big0.sub x h
  let result ← big0.add h l
  return ((⟨x.float64.1, l.float64.1⟩, Accuracy.ofOrdering (x.cmp result)), x)

theorem newFromBig_finite_eq {x : BigFloat} (hf : x.form = .finite) :
    newFromBig x = split ((x.setPrec precision).setMode .toNearestEven) := by
  unfold newFromBig split
  rw [newFloat_zero]
  have hinf : x.isInf = false := by unfold BigFloat.isInf; rw [hf]; rfl
  have hcmp : x.cmp big0 ≠ .eq := BigFloat.cmp_zero_finite hf rfl
  have h0 : BigFloat.setMode big0 .toNearestEven = big0 := rfl
  simp only [bind, Except.bind, pure, Except.pure, zero106, hinf, hcmp, Bool.false_eq_true, if_false, h0]

theorem newFromBig_inf {x : BigFloat} (hf : x.form = .inf) : newFromBig x = .ok ((if x.neg then NegInf else Inf, .exact), x) := by
  unfold newFromBig
  rw [newFloat_zero]
  have hinf : x.isInf = true := by unfold BigFloat.isInf; rw [hf]; rfl
  simp only [bind, Except.bind, pure, Except.pure, hinf, if_true]
  rfl

theorem newFromBig_zero {x : BigFloat} (hf : x.form = .zero) :
    newFromBig x = .ok ((if x.neg then NegZero else Zero, .exact), x) := by
  unfold newFromBig
  rw [newFloat_zero]
  have hinf : x.isInf = false := by unfold BigFloat.isInf; rw [hf]; rfl
  have hcmp : x.cmp big0 = .eq := BigFloat.cmp_zero_zero hf rfl
  simp only [bind, Except.bind, pure, Except.pure, zero106, hinf, hcmp, Bool.false_eq_true, if_false, if_true]
  rfl

/-- `NewFromBig` panics when the double nearest to the argument is an infinity. -/
theorem split_panic {x : BigFloat} (hx : x.form ≠ .zero) {s : Bool} (hs : x.neg = s)
    (h : double.decode (x.float64.1).toNat = .inf s) : split x = .error .errNaN := by
  have hn := isNaN_false_of_inf h
  obtain ⟨y, hy, hd, hwf, hp, hmo, hacc, hsm⟩ := newFloat106 hn
  rw [h] at hd
  obtain ⟨n1, f1⟩ := BigFloat.datum_inf hd
  unfold split
  simp only [bind, Except.bind, pure, Except.pure, hy, hsm]
  set H := y.setPrec precision
  have hsub : (∃ l, big0.sub x H = .ok l ∧ l.form = .inf ∧ l.neg = !s) ∨ big0.sub x H = .error .errNaN := by
    unfold BigFloat.sub
    rw [if_neg (by decide), f1]
    cases hxf : x.form with
    | zero => exact absurd hxf hx
    | inf =>
      right
      simp only
      rw [if_pos (by rw [hs, n1])]
    | finite =>
      left
      refine ⟨_, rfl, ?_⟩
      unfold BigFloat.negOf BigFloat.set BigFloat.negSelf
      rw [if_neg (by decide), hp, if_neg (by decide)]
      exact ⟨f1, by rw [n1]⟩
  rcases hsub with ⟨l, hl, lf, ln⟩ | hl
  · rw [hl]
    simp only
    have hadd : big0.add H l = .error .errNaN := by
      unfold BigFloat.add
      rw [if_neg (by decide), f1, lf]
      simp only
      rw [if_pos (by rw [n1, ln]; cases s <;> simp)]
    rw [hadd]
  · rw [hl]

/-- A number of at most `p` bits as a multiple of its unit in the last place. -/
theorem sval_multiple {x : BigFloat} (hx : x.WF) (hf : x.form = .finite) {p : ℕ} (hp : x.prec ≤ p) :
    ∃ K : ℕ, x.mag = K * (2 : ℚ) ^ (x.exp - p) ∧ K < 2 ^ p := by
  obtain ⟨k, j, hk, hkp⟩ := hx.fits hf
  have hm := hx.mant_pos hf
  have hk0 : 0 < k := by
    rcases Nat.eq_zero_or_pos k with h | h
    · rw [h] at hk; omega
    · exact h
  have hbk : bitLen k ≤ p := (bitLen_le_of_lt hkp).trans hp
  obtain ⟨d, hd⟩ : ∃ d, p = bitLen k + d := ⟨p - bitLen k, by omega⟩
  refine ⟨k * 2 ^ d, ?_, ?_⟩
  · rw [BigFloat.mag_eq, hk, bitLen_mul_two_pow hk0, Nat.cast_mul, Nat.cast_mul, Nat.cast_pow, Nat.cast_pow, Nat.cast_ofNat,
      mul_assoc, mul_assoc, ← zpow_natCast, ← zpow_natCast, ← zpow_add₀ (by norm_num), ← zpow_add₀ (by norm_num)]
    congr 2; push_cast [hd]; ring
  · rw [hd, pow_add]
    exact Nat.mul_lt_mul_of_pos_right (lt_two_pow_bitLen k) (Nat.two_pow_pos d)

theorem zero_float64 {l : BigFloat} (h : l.form = .zero) (hn : l.neg = false) : l.float64.1 = 0 := by
  have : l.toIEEE 52 11 = (double.signPart false, .exact) := by rw [← hn]; exact toIEEE_zero double h
  unfold BigFloat.float64
  rw [this]
  rfl

/-- The main computation of `NewFromBig`: `high` is the nearest double, `low` the double nearest to the remainder. -/
theorem split_spec {x : BigFloat} (hx : x.WF) (hf : x.form = .finite) (hp : x.prec = 106)
    (hov : ¬ double.overflowAt ≤ x.mag) :
    ∃ (high low : F64) (rh : ℚ), split x = .ok ((⟨high, low⟩, .exact), x) ∧ double.decode high.toNat = .num x.neg rh ∧
      double.RoundsTo x.neg x.mag high.toNat ∧
      (x.sval - signed x.neg rh = 0 → low = 0) ∧
      (x.sval - signed x.neg rh ≠ 0 →
        double.RoundsTo (decide (x.sval - signed x.neg rh < 0)) |x.sval - signed x.neg rh| low.toNat) ∧
      (-968 ≤ x.exp → ∃ s m, double.decode low.toNat = .num s m ∧ signed s m = x.sval - signed x.neg rh) ∧
      (-1020 ≤ x.exp → |x.sval - signed x.neg rh| ≤ 2 ^ (x.exp - 54) ∧ (2 : ℚ) ^ (x.exp - 1) ≤ rh) := by
  obtain ⟨d1, d2, d3, d4⟩ := double_facts
  have hm := hx.mant_pos hf
  have hmag := BigFloat.mag_pos hm
  have hmaglt : x.mag < 2 ^ (1024 : ℤ) := by
    push Not at hov
    refine hov.trans_le ?_
    unfold Format.overflowAt
    rw [d2, d3, show (1024 : ℤ) = 1023 + 1 by norm_num, zpow_add_one₀ (by norm_num)]
    have hP : (0 : ℚ) < 2 ^ (1023 : ℤ) := zpow_pos (by norm_num) _
    generalize (2 : ℚ) ^ (1023 : ℤ) = P at hP ⊢
    have : (0 : ℚ) < 1 / 2 ^ (52 + 1) := by positivity
    nlinarith
  have hsv : x.sval = signed x.neg x.mag := BigFloat.sval_finite hf
  -- the high half
  obtain ⟨k, N, hk, hN, hto⟩ := toIEEE_formula double (by decide) (by decide) hx hf
  have hlt : ¬ double.infCode ≤ k * 2 ^ double.t + N := by
    rw [overflow_iff double (by decide) hm hk hN]; exact hov
  rw [if_neg hlt] at hto
  obtain ⟨hb1, hb2⟩ := binade_bounds double hm hk
  obtain ⟨hN1, hN2, -, -⟩ := nearest_code double hb1 hb2 hN
  set Q : ℤ := double.qmin + k with hQ
  have hQe : Q = max (x.exp - 53) (-1074) := by rw [hQ, d1, hk, d2]; omega
  set rh : ℚ := N * (2 : ℚ) ^ Q with hrh
  have hnat : (x.float64.1).toNat = double.signPart x.neg + (k * 2 ^ double.t + N) := by
    rw [float64_toNat hx, hto]
  have hdec : double.decode (x.float64.1).toNat = .num x.neg rh := by
    rw [hnat, double.decode_code _ (not_le.1 hlt), double.magc_eq hN1 hN2]
  have hrt : double.RoundsTo x.neg x.mag (x.float64.1).toNat := by
    rw [float64_toNat hx]; exact (toIEEE_finite_spec double (by decide) (by decide) (by decide) hx hf).1
  have hQ0 : (0 : ℚ) < 2 ^ Q := by positivity
  have hhalf : |x.mag - rh| ≤ 2 ^ (Q - 1) := by
    have h1 := abs_sub_rhe_le_half (x.mag / 2 ^ Q)
    rw [← hN] at h1
    have h2 : x.mag - rh = (x.mag / 2 ^ Q - ((N : ℤ) : ℚ)) * 2 ^ Q := by
      rw [sub_mul, div_mul_cancel₀ _ hQ0.ne', hrh, Int.cast_natCast]
    rw [h2, abs_mul, abs_of_pos hQ0, zpow_sub_one₀ (by norm_num)]
    nlinarith
  have hexp : rh ≠ 0 → -1074 ≤ x.exp := by
    intro h
    have hNpos : 1 ≤ N := by
      rcases Nat.eq_zero_or_pos N with h0 | h0
      · rw [hrh, h0] at h; simp at h
      · exact h0
    have h3 : (1 : ℚ) / 2 ≤ x.mag / 2 ^ Q := by
      by_contra hc
      push Not at hc
      have : rhe (x.mag / 2 ^ Q) < 1 := rhe_lt_of (by push_cast; linarith)
      omega
    rw [le_div_iff₀ hQ0] at h3
    have h4 : (2 : ℚ) ^ (Q - 1) ≤ x.mag := by rw [zpow_sub_one₀ (by norm_num)]; linarith
    have h5 := BigFloat.exp_gt_of_mag h4
    omega
  -- the remainder as a multiple
  obtain ⟨K, hK, hKlt⟩ := sval_multiple hx hf (p := 106) hp.le
  set D : ℚ := x.sval - signed x.neg rh with hD
  set J : ℤ := K - N * 2 ^ (Q - (x.exp - 106)).toNat with hJ
  have hQx : 0 ≤ Q - (x.exp - 106) := by omega
  have hu0 : (0 : ℚ) < 2 ^ (x.exp - 106) := by positivity
  have hJD : x.mag - rh = J * 2 ^ (x.exp - 106) := by
    rw [hJ, hrh, hK]
    push_cast
    rw [sub_mul, mul_assoc (N : ℚ), ← zpow_natCast, ← zpow_add₀ (by norm_num), Int.toNat_of_nonneg hQx, sub_add_cancel]
  have hDm : D = signed x.neg (x.mag - rh) := by
    rw [hD, hsv]; unfold signed; split <;> ring
  have habsD : |D| = |x.mag - rh| := by
    rw [hDm]; unfold signed; split
    · rw [abs_neg]
    · rfl
  set J' : ℤ := (if x.neg then -1 else 1) * J with hJ'
  have hDJ : D = J' * 2 ^ (x.exp - 106) := by
    rw [hDm, hJD, BigFloat.signed_eq_mul, hJ']; push_cast; ring
  have habsJ : |J'| = |J| := by rw [hJ']; split <;> simp
  have hJb : |J| < 2 ^ 106 := by
    by_cases h0 : rh = 0
    · have hN0 : N = 0 := by
        rw [hrh] at h0
        rcases mul_eq_zero.1 h0 with h | h
        · exact_mod_cast h
        · exact absurd h hQ0.ne'
      rw [hJ, hN0]
      rw [Nat.cast_zero, zero_mul, sub_zero, abs_of_nonneg (by positivity)]
      exact_mod_cast hKlt
    · have he := hexp h0
      have h1 : |(J : ℚ)| * 2 ^ (x.exp - 106) ≤ 2 ^ (105 : ℕ) * 2 ^ (x.exp - 106) := by
        rw [← abs_of_pos hu0, ← abs_mul, ← hJD, abs_of_pos hu0]
        refine hhalf.trans ?_
        rw [← zpow_natCast, ← zpow_add₀ (by norm_num)]
        exact zpow_le_zpow_right₀ (by norm_num) (by rw [Nat.cast_ofNat]; omega)
      have h2 := le_of_mul_le_mul_right h1 hu0
      have h3 : |J| ≤ 2 ^ 105 := by exact_mod_cast h2
      exact lt_of_le_of_lt h3 (by norm_num)
  have hDle : |D| ≤ 2 ^ (1024 : ℤ) := by
    rw [habsD]
    have h1 := abs_sub_rhe_le (x.mag / 2 ^ Q) 0
    rw [← hN] at h1
    have h2 : x.mag - rh = (x.mag / 2 ^ Q - ((N : ℤ) : ℚ)) * 2 ^ Q := by
      rw [sub_mul, div_mul_cancel₀ _ hQ0.ne', hrh, Int.cast_natCast]
    rw [h2, abs_mul, abs_of_pos hQ0]
    have h3 := mul_le_mul_of_nonneg_right h1 hQ0.le
    rw [Int.cast_zero, sub_zero, abs_of_pos (div_pos hmag hQ0), div_mul_cancel₀ _ hQ0.ne'] at h3
    exact h3.trans hmaglt.le
  -- run the code
  have hn := isNaN_false_of_num hdec
  obtain ⟨y, hy, hd, hwf, hpp, hmo, hacc, hsm⟩ := newFloat106 hn
  rw [hdec] at hd
  set H := y.setPrec precision with hH
  obtain ⟨sh, fh, nh⟩ := BigFloat.sval_of_datum hwf hd
  have hrhF : H.form = .finite → rh ≠ 0 := by
    intro h h0
    have := (BigFloat.datum_inj_form hwf hd).2.1 h0
    rw [h] at this; exact absurd this (by decide)
  have hsum : x.sval + H.negSelf.sval = D := by rw [BigFloat.sval_negSelf, sh, hD]; ring
  obtain ⟨l, hl, l0, l1⟩ := BigFloat.add_spec (z := big0) (x := x) (y := H.negSelf) hx (BigFloat.negSelf_wf hwf) (by rw [hf]; simp)
    (by exact fh) (by decide) (by decide) rfl
    (by
      intro _ h2 hne
      rw [hsum] at hne ⊢
      have := hexp (hrhF h2)
      refine le_trans (BigFloat.minExp_le (q := x.exp - 106) (by omega)) (BigFloat.multiple_ge hDJ hne))
    (by rw [hsum]; exact BigFloat.lt_maxExp hDle (by norm_num))
  rw [hsum] at l0 l1
  have hl' : big0.sub x H = .ok l := by rw [BigFloat.sub_eq_add hf fh, hl]
  have hlsv : l.sval = D ∧ l.form ≠ .inf ∧ l.WF := by
    by_cases h : D = 0
    · obtain ⟨q1, q2, q3, -⟩ := l0 h
      refine ⟨by rw [BigFloat.sval_zero q1, h], by rw [q1]; simp, ⟨by rw [q3]; decide, ?_, ?_, ?_, ?_, ?_⟩⟩ <;>
        (intro hc; rw [q1] at hc; exact absurd hc (by decide))
    · have hr := l1 h
      refine ⟨(hr.exact (by decide) (k := J') (q := x.exp - 106) (by rw [habsJ]; exact hJb) hDJ).1, ?_, hr.2.2.1⟩
      rw [hr.2.2.2.1]; simp
  obtain ⟨hls, hlf, hlwf⟩ := hlsv
  have hsum2 : H.sval + l.sval = x.sval := by rw [sh, hls, hD]; ring
  have hxne : x.sval ≠ 0 := by
    intro h0
    have := BigFloat.signed_abs (s := x.neg) hmag.le
    rw [← hsv, h0, abs_zero] at this; linarith
  have hxabs : |x.sval| = x.mag := by rw [hsv, BigFloat.signed_abs hmag.le]
  obtain ⟨r, hr, -, r1⟩ := BigFloat.add_spec (z := big0) hwf hlwf fh hlf (by decide) (by decide) rfl
    (by
      intro h2 _ _
      rw [hsum2, hxabs]
      have := hexp (hrhF h2)
      exact le_trans (BigFloat.minExp_le (q := x.exp - 1) (by omega)) (BigFloat.le_mag hm))
    (by rw [hsum2, hxabs]; exact BigFloat.lt_maxExp hmaglt.le (by norm_num))
  rw [hsum2] at r1
  have hrr := r1 hxne
  have hrex := (hrr.exact (by decide) (k := (if x.neg then -1 else 1) * K) (q := x.exp - 106) (by
      rw [abs_mul, show |(if x.neg then (-1 : ℤ) else 1)| = 1 by split <;> norm_num, one_mul, abs_of_nonneg (by positivity)]
      exact_mod_cast hKlt) (by
      rw [hsv, hK, BigFloat.signed_eq_mul]; push_cast; ring)).1
  have hcmp : x.cmp r = .eq :=
    (BigFloat.cmp_spec hx hrr.2.2.1 (by rw [hf]; simp) (by rw [hrr.2.2.2.1]; simp)).2.2.2 hrex.symm
  refine ⟨x.float64.1, l.float64.1, rh, ?_, hdec, hrt, ?_, ?_, ?_, ?_⟩
  · unfold split
    simp only [bind, Except.bind, pure, Except.pure, hy, hsm, ← hH, hl', hr, hcmp]
    rfl
  · intro h
    obtain ⟨q1, -, -, -, q5⟩ := l0 h
    refine zero_float64 q1 ?_
    rw [q5]
    have : H.negSelf.neg = !H.neg := rfl
    rw [this, nh]; cases x.neg <;> rfl
  · intro h
    have hll := l1 h
    rw [float64_toNat hlwf]
    have := (toIEEE_finite_spec double (by decide) (by decide) (by decide) hlwf hll.2.2.2.1).1
    rw [hll.2.2.2.2.1] at this
    have hlm : l.mag = |D| := by
      rw [← hls, BigFloat.sval_finite hll.2.2.2.1, BigFloat.signed_abs (BigFloat.mag_pos (hlwf.mant_pos hll.2.2.2.1)).le]
    rwa [hlm] at this
  · intro he
    by_cases h : D = 0
    · obtain ⟨q1, -, -, -, q5⟩ := l0 h
      have hz : l.float64.1 = 0 := by
        refine zero_float64 q1 ?_
        rw [q5]
        have : H.negSelf.neg = !H.neg := rfl
        rw [this, nh]; cases x.neg <;> rfl
      refine ⟨false, 0, ?_, by rw [← hD, h]; rfl⟩
      rw [hz]; exact (roundsTo_zero double (by decide) false).1
    · have hll := l1 h
      have hlm : l.mag = |D| := by
        rw [← hls, BigFloat.sval_finite hll.2.2.2.1, BigFloat.signed_abs (BigFloat.mag_pos (hlwf.mant_pos hll.2.2.2.1)).le]
      have hJ52 : |J| ≤ 2 ^ 52 := by
        have h1 : |(J : ℚ)| * 2 ^ (x.exp - 106) ≤ 2 ^ (52 : ℕ) * 2 ^ (x.exp - 106) := by
          rw [← abs_of_pos hu0, ← abs_mul, ← hJD, abs_of_pos hu0]
          refine hhalf.trans ?_
          rw [← zpow_natCast, ← zpow_add₀ (by norm_num)]
          exact zpow_le_zpow_right₀ (by norm_num) (by rw [Nat.cast_ofNat]; omega)
        have h2 := le_of_mul_le_mul_right h1 hu0
        exact_mod_cast h2
      have hlm2 : l.mag = (J.natAbs : ℕ) * (2 : ℚ) ^ (x.exp - 106) := by
        rw [hlm, hDJ, abs_mul, abs_of_pos hu0, ← Int.cast_abs, habsJ, Int.abs_eq_natAbs, Int.cast_natCast]
      obtain ⟨n, hn1, hn2⟩ := exists_code double (by decide) (N := J.natAbs) (q := x.exp - 106) (by
          rw [d3]
          rw [Int.abs_eq_natAbs] at hJ52
          have : J.natAbs ≤ 2 ^ 52 := by exact_mod_cast hJ52
          exact lt_of_le_of_lt this (by norm_num)) (by rw [d1]; omega) (by
          rw [← hlm2, hlm, habsD, d2]
          refine hhalf.trans_lt ?_
          refine zpow_lt_zpow_right₀ (by norm_num) ?_
          have := BigFloat.exp_lt_of_mag hm hmaglt
          omega)
      have hto2 := toIEEE_of_magc double (by decide) (by decide) hlwf hll.2.2.2.1 hn1 (by rw [hlm2, hn2])
      refine ⟨l.neg, l.mag, ?_, ?_⟩
      · rw [float64_toNat hlwf, hto2, double.decode_code _ hn1, hn2, hlm2]
      · rw [← BigFloat.sval_finite hll.2.2.2.1, hls]
  · intro he
    constructor
    · rw [habsD, show x.exp - 54 = Q - 1 by omega]
      exact hhalf
    · have h52 : 2 ^ 52 ≤ N := by
        rcases hN2 with h | h
        · rw [h, d2] at hk; omega
        · exact h
      rw [hrh, show x.exp - 1 = (52 : ℕ) + Q by push_cast; omega, zpow_add₀ (by norm_num), zpow_natCast]
      have : ((2 : ℚ) ^ 52) ≤ N := by exact_mod_cast h52
      exact mul_le_mul_of_nonneg_right this hQ0.le

/-- What `NewFromBig` does to a finite argument: it rounds it to 106 bits in the rounding mode of the argument. -/
def prepared (x : BigFloat) : BigFloat := (x.setPrec precision).setMode .toNearestEven

theorem prepared_any {x : BigFloat} (hx : x.WF) (hf : x.form = .finite) :
    (prepared x).neg = x.neg ∧ (prepared x).prec = 106 ∧ (prepared x).mode = .toNearestEven ∧
    (((prepared x).form = .finite ∧ (prepared x).WF ∧ |x.mag - (prepared x).mag| < 2 ^ (x.exp - 106) ∧
        ((prepared x).exp = x.exp ∨ (prepared x).exp = x.exp + 1)) ∨
      ((prepared x).form = .inf ∧ x.exp = BigFloat.MaxExp)) := by
  obtain ⟨h1, h2, h3, h4⟩ := BigFloat.setPrec_any hx hf (p := 106) (by norm_num) (by decide)
  refine ⟨h1, h2, rfl, ?_⟩
  rcases h4 with ⟨f, w, m, e⟩ | ⟨f, e⟩
  · exact Or.inl ⟨f, ⟨w.prec_le, w.mant_pos, w.exp_ge, w.exp_le, w.prec_pos, w.fits⟩, m, e⟩
  · exact Or.inr ⟨f, e⟩

theorem newFromBig_panic {x : BigFloat} (hx : x.WF) (hf : x.form = .finite)
    (h : (prepared x).form = .inf ∨ (prepared x).form = .finite ∧ double.overflowAt ≤ (prepared x).mag) :
    newFromBig x = .error .errNaN := by
  rw [newFromBig_finite_eq hf]
  obtain ⟨h1, h2, h3, h4⟩ := prepared_any hx hf
  change split (prepared x) = _
  rcases h with h | ⟨hfin, h⟩
  · refine split_panic (s := x.neg) (by rw [h]; simp) h1 ?_
    have h5 : (prepared x).toIEEE 52 11 = (double.signPart (prepared x).neg + double.infCode, .exact) := toIEEE_inf double h
    have h6 : (prepared x).float64.1.toNat = double.signPart (prepared x).neg + double.infCode := by
      unfold BigFloat.float64
      rw [h5]
      cases (prepared x).neg <;> rfl
    rw [h6, h1, double.decode_inf]
  · rcases h4 with ⟨-, w, -⟩ | ⟨f, -⟩
    · refine split_panic (s := x.neg) (by rw [hfin]; simp) h1 ?_
      have h5 := (toIEEE_finite_spec double (by decide) (by decide) (by decide) w hfin).1
      unfold Format.RoundsTo at h5
      rw [if_pos h, h1] at h5
      rw [float64_toNat w]; exact h5
    · rw [f] at hfin; exact absurd hfin (by decide)

/-- Rounding to 106 bits reaches the overflow threshold exactly from half a unit (2^917) below it. -/
theorem overflow106 {v : ℚ} {r : BigFloat} (h : BigFloat.RoundedTo big0 v r) :
    double.overflowAt ≤ r.mag ↔ double.overflowAt - 2 ^ (917 : ℤ) ≤ |v| := by
  obtain ⟨-, -, -, -, -, e, h1, h2, h3, -⟩ := h
  obtain ⟨d1, d2, d3, d4⟩ := double_facts
  have hp : (big0.prec : ℤ) = 106 := rfl
  rw [hp] at h3
  unfold Format.overflowAt
  rw [d2, d3]
  have e1 : (2 : ℚ) ^ (1023 : ℤ) = 2 ^ 105 * 2 ^ (918 : ℤ) := by
    rw [show (1023 : ℤ) = 105 + 918 by norm_num, zpow_add₀ (by norm_num)]; rfl
  have e2 : (2 : ℚ) ^ (917 : ℤ) = 2 ^ (918 : ℤ) / 2 := by
    rw [show (917 : ℤ) = 918 - 1 by norm_num, zpow_sub_one₀ (by norm_num)]; rfl
  have hu : (0 : ℚ) < 2 ^ (e - 106) := by positivity
  have hr1 : (2 : ℚ) ^ (e - 1) ≤ r.mag := by
    have : (2 ^ 105 : ℤ) ≤ rhe (|v| / 2 ^ (e - 106)) := by
      refine rhe_ge_of_even (by norm_num) ?_
      have : (2 : ℚ) ^ 105 ≤ |v| / 2 ^ (e - 106) := by
        rw [le_div_iff₀ hu, show (2 : ℚ) ^ 105 = 2 ^ (105 : ℤ) from rfl, ← zpow_add₀ (by norm_num)]
        rw [show (105 : ℤ) + (e - 106) = e - 1 by ring]; exact h1
      push_cast; linarith
    rw [h3, show e - 1 = 105 + (e - 106) by ring, zpow_add₀ (by norm_num)]
    refine mul_le_mul_of_nonneg_right ?_ hu.le
    exact_mod_cast this
  have hr2 : r.mag ≤ (2 : ℚ) ^ e := by
    have : rhe (|v| / 2 ^ (e - 106)) ≤ (2 ^ 106 : ℤ) := by
      have : rhe (|v| / 2 ^ (e - 106)) < (2 ^ 106 + 1 : ℤ) := by
        refine rhe_lt_of ?_
        have : |v| / 2 ^ (e - 106) < (2 : ℚ) ^ 106 := by
          rw [div_lt_iff₀ hu, show (2 : ℚ) ^ 106 = 2 ^ (106 : ℤ) from rfl, ← zpow_add₀ (by norm_num)]
          rw [show (106 : ℤ) + (e - 106) = e by ring]; exact h2
        push_cast; linarith
      omega
    rw [h3, show e = 106 + (e - 106) by ring, zpow_add₀ (by norm_num), show (106 : ℤ) + (e - 106) - 106 = e - 106 by ring]
    refine mul_le_mul_of_nonneg_right ?_ hu.le
    exact_mod_cast this
  have hP : (0 : ℚ) < 2 ^ (918 : ℤ) := zpow_pos (by norm_num) _
  rcases lt_trichotomy e 1024 with he | he | he
  · have h4 : (2 : ℚ) ^ e ≤ 2 ^ (1023 : ℤ) := zpow_le_zpow_right₀ (by norm_num) (by omega)
    rw [e1] at h4
    rw [e1, e2]
    generalize (2 : ℚ) ^ (918 : ℤ) = P at *
    generalize (2 : ℚ) ^ e = E at *
    generalize |v| = w at *
    clear e1 e2 d1 d2 d3 d4 h3 hp hu
    constructor
    · intro h; exfalso; norm_num at h h4; linarith
    · intro h; exfalso; norm_num at h h4; linarith
  · subst he
    rw [show (1024 : ℤ) - 106 = 918 by norm_num] at h3
    rw [h3, e1, e2]
    generalize (2 : ℚ) ^ (918 : ℤ) = P at *
    have k1 : (2 : ℚ) ^ 105 * P * (2 - 1 / 2 ^ (52 + 1)) = ((2 ^ 106 - 2 ^ 52 : ℤ) : ℚ) * P := by push_cast; ring
    rw [k1]
    constructor
    · intro h
      by_contra hc
      push Not at hc
      have h5 : rhe (|v| / P) < (2 ^ 106 - 2 ^ 52 : ℤ) := by
        refine rhe_lt_of ?_
        rw [div_lt_iff₀ hP]; linarith
      have h6 := le_of_mul_le_mul_right h hP
      have h7 : (2 ^ 106 - 2 ^ 52 : ℤ) ≤ rhe (|v| / P) := by exact_mod_cast h6
      omega
    · intro h
      refine mul_le_mul_of_nonneg_right ?_ hP.le
      have : (2 ^ 106 - 2 ^ 52 : ℤ) ≤ rhe (|v| / P) := by
        refine rhe_ge_of_even (by norm_num) ?_
        rw [le_div_iff₀ hP]; linarith
      exact_mod_cast this
  · have h4 : (2 : ℚ) ^ (1023 + 1 : ℤ) ≤ 2 ^ (e - 1) := zpow_le_zpow_right₀ (by norm_num) (by omega)
    rw [zpow_add_one₀ (by norm_num), e1] at h4
    rw [e1, e2]
    generalize (2 : ℚ) ^ (918 : ℤ) = P at *
    generalize (2 : ℚ) ^ (e - 1) = E at *
    generalize |v| = w at *
    clear e1 e2 d1 d2 d3 d4 h3 hp hu
    constructor
    · intro _; norm_num at h4 ⊢; linarith
    · intro _; norm_num at h4 ⊢; linarith

theorem magc_lt_overflow {n : ℕ} (hn : n < double.infCode) : double.magc n < double.overflowAt := by
  have h1 : double.magc n ≤ double.magc (2045 * 2 ^ double.t + (2 ^ 53 - 1)) :=
    (Format.magc_strictMono double).monotone (by
      have : double.infCode = 2045 * 2 ^ double.t + (2 ^ 53 - 1) + 1 := by decide
      omega)
  rw [double.magc_eq (by decide) (by right; decide)] at h1
  refine h1.trans_lt ?_
  unfold Format.overflowAt
  obtain ⟨d1, d2, d3, d4⟩ := double_facts
  rw [d1, d2, d3, show (1023 : ℤ) = 52 + (-1074 + (2045 : ℕ)) by norm_num, zpow_add₀ (by norm_num : (2 : ℚ) ≠ 0) 52]
  have hP : (0 : ℚ) < 2 ^ (-1074 + ((2045 : ℕ) : ℤ)) := zpow_pos (by norm_num) _
  generalize (2 : ℚ) ^ (-1074 + ((2045 : ℕ) : ℤ)) = P at hP ⊢
  rw [mul_right_comm]
  refine mul_lt_mul_of_pos_right ?_ hP
  norm_num

/-- A correctly rounded result is unique. -/
theorem RoundsTo.unique {F : Format} (ht : 1 ≤ F.t + F.w) {s : Bool} {m : ℚ} {c c' : ℕ} (h : F.RoundsTo s m c) (h' : F.RoundsTo s m c') :
    F.decode c = F.decode c' := by
  unfold Format.RoundsTo at h h'
  split at h
  · rename_i ho
    rw [if_pos ho] at h'
    rw [h, h']
  · rename_i ho
    rw [if_neg ho] at h'
    obtain ⟨r, hd, hn, he⟩ := h
    obtain ⟨r', hd', hn', he'⟩ := h'
    rw [hd, hd']
    congr 1
    by_contra hne
    have heq := le_antisymm (hn _ _ _ hd') (hn' _ _ _ hd)
    have hs : signed s r ≠ signed s r' := by
      unfold signed; split
      · intro h; exact hne (neg_injective h)
      · exact hne
    have c0 := he _ _ _ hd' hs.symm heq
    have c0' := he' _ _ _ hd hs heq.symm
    obtain ⟨n, hn1, rfl, hn2, -⟩ := F.code_of_decode hd
    obtain ⟨n', hn1', rfl, hn2', -⟩ := F.code_of_decode hd'
    have hev : ∀ c : ℕ, c % 2 = 0 → c % 2 ^ (F.t + F.w) % 2 = 0 := by
      intro c hc
      rw [Nat.mod_mod_of_dvd _ (dvd_pow_self 2 (by omega)), hc]
    have e1 := hev c c0
    have e2 := hev c' c0'
    rw [hn2] at e1
    rw [hn2'] at e2
    have key : ∀ a b : ℕ, a < b → b < F.infCode → a % 2 = 0 → b % 2 = 0 →
        |signed s m - signed s (F.magc a)| = |signed s m - signed s (F.magc b)| →
        (∀ c' s' r', F.decode c' = .num s' r' → |signed s m - signed s (F.magc a)| ≤ |signed s m - signed s' r'|) → False := by
      intro a b hab hb ha2 hb2 heq hmin
      have l1 : F.magc a < F.magc (a + 1) := Format.magc_lt_succ F a
      have l2 : F.magc (a + 1) < F.magc b := Format.magc_strictMono F (by omega)
      have h3 := hmin _ _ _ (F.decode_code s (n := a + 1) (by omega))
      have red : ∀ u : ℚ, |signed s m - signed s u| = |m - u| := by
        intro u; unfold signed; split
        · rw [← abs_neg]; congr 1; ring
        · rfl
      rw [red, red] at heq h3
      rcases abs_cases (m - F.magc a) with ⟨x1, x2⟩ | ⟨x1, x2⟩ <;> rcases abs_cases (m - F.magc b) with ⟨y1, y2⟩ | ⟨y1, y2⟩ <;>
        rcases abs_cases (m - F.magc (a + 1)) with ⟨z1, z2⟩ | ⟨z1, z2⟩ <;> linarith
    rcases lt_trichotomy n n' with hlt | heq2 | hlt
    · exact key n n' hlt hn1' e1 e2 heq hn
    · exact hne (by rw [heq2])
    · exact key n' n hlt hn1 e2 e1 heq.symm hn'

/-- The embedding of a double. -/
theorem big_embed {x : F64} (h : F64.isNaN x = false) :
    ∃ y, (Float.mk x 0).big = .ok (y, false) ∧ y.datum = double.decode x.toNat ∧ y.acc = .exact ∧ y.WF := by
  have hl : double.decode (Float.mk x 0).low.toNat = .num false 0 := (roundsTo_zero double (by decide) false).1
  have hl0 : F64.isNaN (Float.mk x 0).low = false := isNaN_false_of_num hl
  rcases decode_cases double x.toNat with ⟨s, hn⟩ | ⟨hi, -⟩ | ⟨hm, hlt⟩
  · rw [(isNaN64_iff x).2 ⟨s, hn⟩] at h; exact absurd h (by decide)
  · obtain ⟨y, h1, h2, h3, h4, h5, h6⟩ := (big_infinite (f := ⟨x, 0⟩) h hl0 (Or.inl hi)).1 (by
      show double.decode x.toNat ≠ _
      rw [hi]; intro hc; injection hc with hc; revert hc; generalize decide (x.toNat / 2 ^ (double.t + double.w) % 2 = 1) = b; cases b <;> decide) (by rw [hl]; simp)
    exact ⟨y, h1, by rw [h2, hi], h4, h6⟩
  · generalize decide (x.toNat / 2 ^ (double.t + double.w) % 2 = 1) = s at hm
    obtain ⟨y, h1, h2, h3⟩ := big_finite (f := ⟨x, 0⟩) hm hl
    have hs0 : signed false 0 = 0 := rfl
    rw [hs0, add_zero] at h2 h3
    set m := double.magc (x.toNat % 2 ^ (double.t + double.w)) with hmdef
    have hm0 : 0 ≤ m := double.magc_nonneg _
    by_cases h0 : signed s m = 0
    · obtain ⟨f, n, a, p, mo⟩ := h2 h0
      have : m = 0 := by
        unfold signed at h0; split at h0
        · linarith
        · exact h0
      refine ⟨y, h1, ?_, a, ⟨by rw [p]; decide, ?_, ?_, ?_, ?_, ?_⟩⟩
      · rw [hm, this]; unfold BigFloat.datum; rw [f, n]
      all_goals (intro hc; rw [f] at hc; exact absurd hc (by decide))
    · have hr := h3 h0
      obtain ⟨k, N, hk, hN1, hN2⟩ := double.code_split (x.toNat % 2 ^ (double.t + double.w))
      have hmag := double.magc_eq hN1.le hN2
      rw [← hk, ← hmdef] at hmag
      obtain ⟨e1, e2⟩ := hr.exact (by decide) (k := (if s then -1 else 1) * N) (q := double.qmin + k) (by
        rw [abs_mul, show |(if s then (-1 : ℤ) else 1)| = 1 by split <;> norm_num, one_mul, abs_of_nonneg (by positivity)]
        have : N < 2 ^ 106 := hN1.trans (by decide)
        exact_mod_cast this) (by rw [hmag, BigFloat.signed_eq_mul]; push_cast; ring)
      refine ⟨y, h1, ?_, e2, hr.2.2.1⟩
      have hmp : 0 < m := by
        rcases hm0.eq_or_lt with h | h
        · exfalso; apply h0; rw [← h]; unfold signed; split <;> simp
        · exact h
      rw [hr.datum, e1, hm, BigFloat.signed_abs hm0]
      congr 1
      rw [Bool.eq_iff_iff, decide_eq_true_eq, BigFloat.signed_neg_iff hmp]

theorem float64_of_big {f : Float} {y : BigFloat} {nan : Bool} (h : f.big = .ok (y, nan)) : f.float64 = .ok (toF64 y nan) := by
  unfold Float.float64 toF64
  rw [h]
  simp only [bind, Except.bind, pure, Except.pure]
  split <;> [(split <;> rfl); rfl]

theorem float32_of_big {f : Float} {y : BigFloat} {nan : Bool} (h : f.big = .ok (y, nan)) : f.float32 = .ok (toF32 y nan) := by
  unfold Float.float32 toF32
  rw [h]
  simp only [bind, Except.bind, pure, Except.pure]
  split <;> [(split <;> rfl); rfl]

theorem newFromFloat64_num {x : F64} (h : F64.isNaN x = false) : newFromFloat64 x = .ok (⟨x, 0⟩, .exact) := by
  obtain ⟨y, hy, -, ha, -⟩ := big_embed h
  unfold newFromFloat64
  rw [h]
  simp only [Bool.false_eq_true, if_false, bind, Except.bind, pure, Except.pure, hy, ha]

theorem newFromFloat64_nan {x : F64} (h : F64.isNaN x = true) :
    newFromFloat64 x = .ok (if F64.signbit x then NegNaN else NaN, .exact) := by
  unfold newFromFloat64
  rw [h]
  rfl

/-- If the argument rounds to nearest even, or needs no rounding, its preparation is rounding to 106 bits. -/
theorem prepared_rounded {x : BigFloat} (hx : x.WF) (hf : x.form = .finite) (hmode : x.mode = .toNearestEven ∨ x.prec ≤ 106)
    (he : x.exp < BigFloat.MaxExp) : ∃ r, BigFloat.RoundedTo big0 x.sval r ∧ prepared x = { r with acc := .exact } := by
  rw [BigFloat.sval_finite hf]
  have hm := hx.mant_pos hf
  have hmag := BigFloat.mag_pos hm
  by_cases hp : x.prec ≤ 106
  · refine ⟨prepared x, ⟨?_, rfl, ?_, ?_, ?_, x.exp, ?_, ?_, ?_, ?_, ?_⟩, ?_⟩ <;>
      (try unfold prepared precision; rw [BigFloat.setPrec_widen (by norm_num) (by decide) hp])
    · rfl
    · exact hx.widen (by decide) hp _ _
    · exact hf
    · show x.neg = decide (signed x.neg x.mag < 0)
      rw [Bool.eq_iff_iff, decide_eq_true_eq, BigFloat.signed_neg_iff hmag]
    · rw [BigFloat.signed_abs hmag.le]; exact BigFloat.le_mag hm
    · rw [BigFloat.signed_abs hmag.le]; exact BigFloat.mag_lt x
    · rw [BigFloat.signed_abs hmag.le]
      obtain ⟨K, hK, -⟩ := sval_multiple hx hf (p := 106) hp
      have hp' : ((big0.prec : ℕ) : ℤ) = ((106 : ℕ) : ℤ) := rfl
      have hu : (2 : ℚ) ^ (x.exp - ((106 : ℕ) : ℤ)) ≠ 0 := by positivity
      rw [hp']
      show x.mag = _
      rw [hK, mul_div_cancel_right₀ _ hu, rhe_natCast, Int.cast_natCast]
    · exact Or.inl rfl
    · rw [BigFloat.signed_abs hmag.le]
      show _ = BigFloat.accOf x.neg x.mag x.mag
      unfold BigFloat.accOf; rw [if_pos rfl]; rfl
    · rfl
  · have hmo : x.mode = .toNearestEven := by
      rcases hmode with h | h
      · exact h
      · exact absurd h hp
    have hr := BigFloat.round_roundedTo (z := { x with prec := 106 }) hf hm (by norm_num) (show 106 ≤ BigFloat.MaxPrec by decide) hmo (hx.exp_ge hf) he
    refine ⟨BigFloat.round { x with prec := 106 }, ?_, ?_⟩
    · obtain ⟨h1, h2, h3⟩ := hr
      refine ⟨h1, ?_, h3⟩
      rw [h2]; exact hmo
    · unfold prepared BigFloat.setPrec precision BigFloat.setMode
      rw [if_neg (by norm_num)]
      simp only [show min 106 BigFloat.MaxPrec = 106 by decide]
      rw [if_pos (by omega), ← hmo]
      congr 1
      exact hr.2.1.symm

/-- The largest exponents overflow. -/
theorem exp_max {x : BigFloat} (hx : x.WF) (hf : x.form = .finite) (he : ¬ x.exp < BigFloat.MaxExp) :
    double.overflowAt + 1 ≤ x.mag ∧ newFromBig x = .error .errNaN := by
  have h1 := BigFloat.le_mag (hx.mant_pos hf)
  have h2 : (2 : ℚ) ^ (1026 : ℤ) ≤ 2 ^ (x.exp - 1) := zpow_le_zpow_right₀ (by norm_num) (by
    have : BigFloat.MaxExp = 2147483647 := rfl
    omega)
  have h3 : double.overflowAt ≤ 2 ^ (1024 : ℤ) := by
    unfold Format.overflowAt
    obtain ⟨d1, d2, d3, d4⟩ := double_facts
    rw [d2, d3, show (1024 : ℤ) = 1023 + 1 by norm_num, zpow_add_one₀ (by norm_num)]
    have hP : (0 : ℚ) < 2 ^ (1023 : ℤ) := zpow_pos (by norm_num) _
    generalize (2 : ℚ) ^ (1023 : ℤ) = P at hP ⊢
    have : (0 : ℚ) < 1 / 2 ^ (52 + 1) := by positivity
    nlinarith
  have h4 : (2 : ℚ) ^ (1026 : ℤ) = 2 ^ (1024 : ℤ) * 4 := by
    rw [show (1026 : ℤ) = 1024 + 2 by norm_num, zpow_add₀ (by norm_num)]; norm_num
  have h6 : (1 : ℚ) ≤ 2 ^ (1024 : ℤ) := one_le_zpow₀ (by norm_num) (by norm_num)
  have hu : (2 : ℚ) ^ (x.exp - 106) ≤ 2 ^ (x.exp - 1) / 2 := by
    rw [show x.exp - 106 = x.exp - 1 - 1 - 104 by ring, zpow_sub₀ (by norm_num) _ 104, zpow_sub_one₀ (by norm_num : (2:ℚ) ≠ 0) (x.exp - 1)]
    have : (0 : ℚ) < 2 ^ (x.exp - 1) := by positivity
    rw [div_le_iff₀ (by positivity)]
    have h104 : (1 : ℚ) ≤ 2 ^ (104 : ℤ) := by norm_num
    generalize (2 : ℚ) ^ (104 : ℤ) = A at *
    generalize (2 : ℚ) ^ (x.exp - 1) = B at *
    clear h2 h3 h4 h6
    nlinarith
  generalize (2 : ℚ) ^ (1026 : ℤ) = A at *
  generalize (2 : ℚ) ^ (1024 : ℤ) = B at *
  refine ⟨by linarith, ?_⟩
  refine newFromBig_panic hx hf ?_
  obtain ⟨-, -, -, h5⟩ := prepared_any hx hf
  rcases h5 with ⟨f, w, m, -⟩ | ⟨f, -⟩
  · refine Or.inr ⟨f, ?_⟩
    have := (abs_lt.1 m).2
    linarith
  · exact Or.inl f

/-- What `NewFromBig` does with a finite argument that rounds to nearest even or needs no rounding. -/
theorem newFromBig_spec {x : BigFloat} (hx : x.WF) (hf : x.form = .finite) (hmode : x.mode = .toNearestEven ∨ x.prec ≤ 106) :
    (double.overflowAt - 2 ^ (917 : ℤ) ≤ x.mag → newFromBig x = .error .errNaN) ∧
    (x.mag < double.overflowAt - 2 ^ (917 : ℤ) → ∃ (v : ℚ) (high low : F64) (rh : ℚ),
      newFromBig x = .ok ((⟨high, low⟩, .exact), prepared x) ∧ RoundsToBits 106 x.sval v ∧
      double.decode high.toNat = .num x.neg rh ∧ signed x.neg |v| = v ∧ double.RoundsTo x.neg |v| high.toNat ∧
      (v - signed x.neg rh = 0 → low = 0) ∧
      (v - signed x.neg rh ≠ 0 → double.RoundsTo (decide (v - signed x.neg rh < 0)) |v - signed x.neg rh| low.toNat) ∧
      (2 ^ (-969 : ℤ) ≤ x.mag → (∃ s m, double.decode low.toNat = .num s m ∧ signed s m = v - signed x.neg rh) ∧
        |v - signed x.neg rh| ≤ 2 ^ (-53 : ℤ) * rh ∧ ∀ e : ℤ, rh < 2 ^ (e + 1) → |v - signed x.neg rh| ≤ 2 ^ (e - 53))) := by
  by_cases he : x.exp < BigFloat.MaxExp
  · obtain ⟨r, hr, hpr⟩ := prepared_rounded hx hf hmode he
    obtain ⟨p1, p2, p3, p4⟩ := prepared_any hx hf
    have hxm := BigFloat.mag_pos (hx.mant_pos hf)
    have habs : |x.sval| = x.mag := by rw [BigFloat.sval_finite hf, BigFloat.signed_abs hxm.le]
    have hpm : (prepared x).mag = r.mag := by rw [hpr]; rfl
    have hpf : (prepared x).form = .finite := by rw [hpr]; exact hr.2.2.2.1
    have hps : (prepared x).sval = r.sval := by rw [hpr]; rfl
    have hw : (prepared x).WF := by
      rcases p4 with ⟨-, w, -⟩ | ⟨f, -⟩
      · exact w
      · rw [f] at hpf; exact absurd hpf (by decide)
    have hov := overflow106 hr
    rw [habs] at hov
    constructor
    · intro h
      refine newFromBig_panic hx hf (Or.inr ⟨hpf, ?_⟩)
      rw [hpm, hov]; exact h
    · intro h
      have hno : ¬ double.overflowAt ≤ (prepared x).mag := by rw [hpm, hov]; exact not_le.2 h
      obtain ⟨high, low, rh, s1, s2, s3, s4, s5, s6, s7⟩ := split_spec hw hpf p2 hno
      have hpmag := BigFloat.mag_pos (hw.mant_pos hpf)
      have hsv : (prepared x).sval = signed (prepared x).neg (prepared x).mag := BigFloat.sval_finite hpf
      rw [p1] at s2 s3 s4 s5 s6 s7 hsv
      have hab : |(prepared x).sval| = (prepared x).mag := by rw [hsv, BigFloat.signed_abs hpmag.le]
      refine ⟨(prepared x).sval, high, low, rh, ?_, ?_, s2, ?_, ?_, s4, s5, ?_⟩
      · rw [newFromBig_finite_eq hf]; exact s1
      · rw [hps]; exact hr.spec (by decide)
      · rw [hab, ← hsv]
      · rw [hab]; exact s3
      · intro hbig
        have hxe : -969 < x.exp := BigFloat.exp_gt_of_mag hbig
        have hpe : -968 ≤ (prepared x).exp := by
          rcases p4 with ⟨-, -, -, e | e⟩ | ⟨f, -⟩
          · omega
          · omega
          · rw [f] at hpf; exact absurd hpf (by decide)
        obtain ⟨q1, q2⟩ := s7 (by omega)
        refine ⟨s6 hpe, ?_, ?_⟩
        · refine q1.trans ?_
          rw [show (prepared x).exp - 54 = -53 + ((prepared x).exp - 1) by ring, zpow_add₀ (by norm_num)]
          exact mul_le_mul_of_nonneg_left q2 (by positivity)
        · intro e hlt
          have : (prepared x).exp - 1 < e + 1 := by
            by_contra hc
            push Not at hc
            have := zpow_le_zpow_right₀ (a := (2 : ℚ)) (by norm_num) hc
            linarith
          exact q1.trans (zpow_le_zpow_right₀ (by norm_num) (by omega))
  · obtain ⟨h1, h2⟩ := exp_max hx hf he
    refine ⟨fun _ => h2, fun h => ?_⟩
    have : (0 : ℚ) < 2 ^ (917 : ℤ) := zpow_pos (by norm_num) _
    generalize (2 : ℚ) ^ (917 : ℤ) = A at *
    exfalso; linarith

end Float128ppc
end GoFloat
