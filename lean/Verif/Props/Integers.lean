import Verif.Props.Cross
import Verif.Props.Difference
import Verif.Props.PairRange
/-
C121: which integers the formats keep.
-/
namespace GoFloat
open Spec

/-- The integers up to 2^p, p the precision, are numbers of a format. -/
theorem integer_code (F : Format) (hw : 2 ≤ F.w) (hq : F.qmin ≤ 0) (hb : (F.t : ℤ) + 1 ≤ F.bias) {n : ℕ} (hn : n ≤ 2 ^ (F.t + 1)) (s : Bool) :
    ∃ k, k < F.infCode ∧ F.decode (F.signPart s + k) = .num s n := by
  have hlt : (n : ℚ) < (2 : ℚ) ^ (F.bias + 1) := by
    have h1 : (n : ℚ) ≤ (2 : ℚ) ^ ((F.t : ℤ) + 1) := by
      have : (n : ℚ) ≤ (2 : ℚ) ^ (F.t + 1) := by exact_mod_cast hn
      rwa [← zpow_natCast, Nat.cast_add, Nat.cast_one] at this
    exact h1.trans_lt (zpow_lt_zpow_right₀ (by norm_num) (by omega))
  rcases hn.lt_or_eq with h | h
  · obtain ⟨k, hk, e⟩ := exists_code F hw h hq (by simpa using hlt)
    exact ⟨k, hk, by rw [F.decode_code _ hk, e]; simp⟩
  · have e1 : (n : ℚ) = ((1 : ℕ) : ℚ) * (2 : ℚ) ^ ((F.t : ℤ) + 1) := by
      rw [h, show ((F.t : ℤ) + 1) = ((F.t + 1 : ℕ) : ℤ) by push_cast; rfl, zpow_natCast]; push_cast; ring
    obtain ⟨k, hk, e⟩ := exists_code F hw (N := 1) (q := (F.t : ℤ) + 1) (Nat.one_lt_two_pow (by omega)) (by omega) (by rw [← e1]; exact hlt)
    exact ⟨k, hk, by rw [F.decode_code _ hk, e, ← e1]⟩

/-- 2^p + 1 has more than p bits. -/
theorem odd_form {p : ℕ} (hp : 1 ≤ p) {K q : ℤ} (hK : |K| < 2 ^ p) : |(K : ℚ) * (2 : ℚ) ^ q| ≠ 2 ^ p + 1 := by
  intro hv'
  rw [abs_mul, abs_of_pos (by positivity : (0 : ℚ) < (2 : ℚ) ^ q)] at hv'
  rcases le_or_gt q 0 with h0 | h0
  · have h1 : (2 : ℚ) ^ q ≤ 1 := zpow_le_one_of_nonpos₀ (by norm_num) h0
    have h2 : |(K : ℚ)| < 2 ^ p := by exact_mod_cast hK
    have := mul_le_of_le_one_right (abs_nonneg (K : ℚ)) h1
    linarith
  · obtain ⟨j, rfl⟩ : ∃ j : ℕ, q = (j : ℤ) + 1 := ⟨(q - 1).toNat, by omega⟩
    obtain ⟨t, rfl⟩ : ∃ t, p = t + 1 := ⟨p - 1, by omega⟩
    have h1 : |K| * 2 ^ (j + 1) = 2 ^ (t + 1) + 1 := by
      have e : (2 : ℚ) ^ ((j : ℤ) + 1) = 2 ^ (j + 1) := by rw [← Nat.cast_succ, zpow_natCast]
      rw [e] at hv'
      exact_mod_cast hv'
    rw [pow_succ, pow_succ, ← mul_assoc] at h1
    omega

/-- The next integer, 2^p + 1, is none. -/
theorem integer_missing (F : Format) (s : Bool) (c : ℕ) : F.decode c ≠ .num s (2 ^ (F.t + 1) + 1) := by
  intro h
  obtain ⟨K, q, hK, -, hv⟩ := value_form h
  refine odd_form (by omega) hK (q := q) ?_
  rw [← hv, BigFloat.signed_abs (by positivity)]

theorem datum_nonneg {y : BigFloat} {s : Bool} {m : ℚ} (h : y.datum = .num s m) : 0 ≤ m := by
  unfold BigFloat.datum at h
  cases hf : y.form <;> rw [hf] at h
  · rw [← (Datum.num.inj h).2]
  · rw [← (Datum.num.inj h).2]; unfold BigFloat.mag; positivity
  · cases h

/-- A variable that holds an integer is one for `IsInt`. -/
theorem isInt_of_datum {y : BigFloat} (hy : y.WF) {s : Bool} {n : ℕ} (h : y.datum = .num s n) : y.isInt = true := by
  rcases Nat.eq_zero_or_pos n with rfl | hn
  · cases hf : y.form with
    | zero => unfold BigFloat.isInt; rw [hf]
    | finite => exact (BigFloat.isInt_iff hy hf).2 ⟨0, by rw [BigFloat.datum_finite hf] at h; exact (Datum.num.inj h).2⟩
    | inf => unfold BigFloat.datum at h; rw [hf] at h; cases h
  · obtain ⟨-, -, hfin⟩ := BigFloat.datum_inj_form hy h
    obtain ⟨hf, hm⟩ := hfin (by positivity)
    exact (BigFloat.isInt_iff hy hf).2 ⟨n, hm⟩

/-- C121 for binary16: the integers up to 2^11 in magnitude are kept. -/
theorem C121_binary16 (x : BigFloat) (hx : x.WF) {s : Bool} {n : ℕ} (hd : x.datum = .num s n) (hn : n ≤ 2 ^ 11) :
    ∃ f y, Binary16.newFromBig x = .ok (f, .exact) ∧ f.big = .ok (y, false) ∧ y.datum = .num s n ∧ y.isInt = true := by
  obtain ⟨k, hk, e⟩ := integer_code half (by decide) (by decide) (by decide) hn s
  have hc : half.signPart s + k < 2 ^ 16 := by
    have h1 : half.infCode = 31744 := by decide
    have h2 : half.signPart s ≤ 2 ^ 15 := by cases s <;> decide
    omega
  have hb : (BitVec.ofNat 16 (half.signPart s + k)).toNat = half.signPart s + k := by rw [BitVec.toNat_ofNat]; exact Nat.mod_eq_of_lt hc
  obtain ⟨y, nan, yb, -, -, -, ywf, yd⟩ := Binary16.big_spec ⟨BitVec.ofNat 16 (half.signPart s + k)⟩
  obtain ⟨hyd, rfl⟩ := decoded_datum (by simp only [hb, e]; intro _ h; cases h) yd
  simp only [hb, e] at hyd
  exact ⟨_, y, Binary16.newFromBig_of_decode hx (by simp only [hb, e, hd]), yb, hyd, isInt_of_datum ywf hyd⟩

/-- C121 for binary128: the integers up to 2^113 in magnitude are kept. -/
theorem C121_binary128 (x : BigFloat) (hx : x.WF) {s : Bool} {n : ℕ} (hd : x.datum = .num s n) (hn : n ≤ 2 ^ 113) :
    ∃ f y, Binary128.newFromBig x = .ok (f, .exact) ∧ f.big = .ok (y, false) ∧ y.datum = .num s n ∧ y.isInt = true := by
  obtain ⟨k, hk, e⟩ := integer_code quad (by decide) (by decide) (by decide) hn s
  obtain ⟨f, f1, f2⟩ := Binary128.newFromBig_widen (F := quad) (by decide) le_rfl le_rfl le_rfl hx (hd.trans e.symm)
  rw [e] at f2
  obtain ⟨y, nan, yb, -, -, -, ywf, yd⟩ := Binary128.big_spec f
  obtain ⟨hyd, rfl⟩ := decoded_datum (by rw [f2]; intro _ h; cases h) yd
  rw [f2] at hyd
  exact ⟨f, y, f1, yb, hyd, isInt_of_datum ywf hyd⟩

/-- C121 for float80x86: the integers up to 2^64 in magnitude are kept, every int64 and every uint64 among them. -/
theorem C121_float80x86 (x : BigFloat) (hx : x.WF) {s : Bool} {n : ℕ} (hd : x.datum = .num s n) (hn : n ≤ 2 ^ 64) :
    ∃ f y, Float80x86.newFromBig x = .ok (f, .exact) ∧ f.big = .ok (y, false) ∧ y.datum = .num s n ∧ y.isInt = true := by
  obtain ⟨k, hk, e⟩ := integer_code extended (by decide) (by decide) (by decide) hn s
  obtain ⟨f, f1, -, f2⟩ := Float80x86.newFromBig_widen (F := extended) (by decide) le_rfl le_rfl le_rfl hx (hd.trans e.symm)
  rw [e] at f2
  obtain ⟨y, nan, yb, -, -, -, ywf, yd⟩ := Float80x86.big_spec f
  obtain ⟨hyd, rfl⟩ := decoded_datum (by rw [f2]; intro _ h; cases h) yd
  rw [f2] at hyd
  exact ⟨f, y, f1, yb, hyd, isInt_of_datum ywf hyd⟩

/-- C121: a uint64 that went through float80x86 is read back by `Uint64`. -/
theorem C121_uint64 (x : BigFloat) (hx : x.WF) {n : BitVec 64} (hd : x.datum = .num false n.toNat) :
    ∃ f y, Float80x86.newFromBig x = .ok (f, .exact) ∧ f.big = .ok (y, false) ∧ y.uint64 = (n, .exact) := by
  obtain ⟨k, hk, e⟩ := integer_code extended (by decide) (by decide) (by decide) (n := n.toNat) n.isLt.le false
  obtain ⟨f, f1, -, f2⟩ := Float80x86.newFromBig_widen (F := extended) (by decide) le_rfl le_rfl le_rfl hx (hd.trans e.symm)
  rw [e] at f2
  obtain ⟨y, nan, yb, -, -, -, ywf, yd⟩ := Float80x86.big_spec f
  obtain ⟨hyd, rfl⟩ := decoded_datum (by rw [f2]; intro _ h; cases h) yd
  rw [f2] at hyd
  refine ⟨f, y, f1, yb, ?_⟩
  obtain ⟨hneg, hz, hfin⟩ := BigFloat.datum_inj_form ywf hyd
  by_cases h0 : n.toNat = 0
  · have hn : n = 0 := BitVec.eq_of_toNat_eq h0
    unfold BigFloat.uint64
    rw [hz (by rw [h0]; rfl), hn]
  · obtain ⟨hf, hm⟩ := hfin (by exact_mod_cast h0)
    have hmp := ywf.mant_pos hf
    have h1 : (1 : ℚ) ≤ y.mag := by rw [hm]; exact_mod_cast Nat.pos_of_ne_zero h0
    have h2 : y.mag < 2 ^ (64 : ℤ) := by rw [hm]; exact_mod_cast n.isLt
    have he0 : 0 < y.exp := by
      by_contra hc
      have := (BigFloat.mag_lt y).trans_le (zpow_le_one_of_nonpos₀ (by norm_num : (1 : ℚ) ≤ 2) (not_lt.1 hc))
      linarith
    have he : y.exp ≤ 64 := by
      by_contra hc
      have := (zpow_le_zpow_right₀ (by norm_num : (1 : ℚ) ≤ 2) (by omega : (64 : ℤ) ≤ y.exp - 1)).trans (BigFloat.le_mag hmp)
      linarith
    have hu := BigFloat.uint64_eq hf hneg he hmp
    rw [hm, Int.floor_natCast] at hu
    have ha : y.uint64.2 = .exact := by
      unfold BigFloat.uint64
      rw [hf, hneg]
      simp [not_le.2 he0, he, isInt_of_datum ywf hyd]
    exact Prod.ext (BitVec.eq_of_toNat_eq (by exact_mod_cast hu)) ha

/-- C121 for float128ppc, whatever the rounding mode of the argument: the integers up to 2^106 in magnitude are kept. -/
theorem C121_float128ppc (x : BigFloat) (hx : x.WF) {s : Bool} {n : ℕ} (hd : x.datum = .num s n) (hn : n ≤ 2 ^ 106) :
    ∃ f x' y, Float128ppc.newFromBig x = .ok ((f, .exact), x') ∧ f.big = .ok (y, false) ∧ y.datum = .num s n := by
  rcases Nat.eq_zero_or_pos n with rfl | h0
  · obtain ⟨-, hz, -⟩ := BigFloat.datum_inj_form hx hd
    have := Float128ppc.C31_partial.2.2.2.2.2.2.1 x (Or.inr ⟨x.neg, hz (by simp), rfl⟩)
    obtain ⟨f, y, h1, h2, h3⟩ := this
    exact ⟨f, x, y, h1, h2, by rw [h3, hd]⟩
  · obtain ⟨hneg, -, hfin⟩ := BigFloat.datum_inj_form hx hd
    have hnq : (0 : ℚ) < n := by exact_mod_cast h0
    obtain ⟨hf, hm⟩ := hfin hnq.ne'
    have hsv : x.sval = signed s n := by rw [BigFloat.sval_finite hf, hneg, hm]
    have hne : x.sval ≠ 0 := by
      intro h; rw [hsv] at h
      have := BigFloat.signed_abs (s := s) hnq.le
      rw [h, abs_zero] at this; exact hnq.ne this
    obtain ⟨k, e, hk, he, hv⟩ : ∃ k e : ℤ, |k| < 2 ^ 106 ∧ 0 ≤ e ∧ x.sval = k * (2 : ℚ) ^ e := by
      rw [hsv]
      rcases hn.lt_or_eq with h | h
      · refine ⟨if s then -n else n, 0, ?_, le_rfl, by unfold signed; cases s <;> simp⟩
        have : ((n : ℕ) : ℤ) < 2 ^ 106 := by exact_mod_cast h
        cases s <;> simpa using this
      · refine ⟨if s then -1 else 1, 106, by cases s <;> norm_num, by norm_num, ?_⟩
        rw [h]; unfold signed; cases s <;> norm_num
    obtain ⟨v, v1, -, v2⟩ := Float128ppc.newFromBig_mode hx hf
    obtain rfl := RoundsToBitsIn.unique (by norm_num) hne v1 (roundsToBitsIn_self ⟨k, e, hk, hv⟩)
    have habs : |x.sval| = n := by rw [hsv]; exact BigFloat.signed_abs hnq.le
    obtain ⟨hi, lo, rh, x', c1, -⟩ := v2 (by
      rw [habs]
      have h1 : (n : ℚ) ≤ 2 ^ 106 := by exact_mod_cast hn
      refine h1.trans_lt ?_
      unfold Format.overflowAt
      refine lt_of_lt_of_le ?_ (le_mul_of_one_le_right (zpow_nonneg (by norm_num) _) ?_)
      · rw [← zpow_natCast]; exact zpow_lt_zpow_right₀ (by norm_num) (by decide)
      · rw [show double.t = 52 by rfl]; norm_num)
    obtain ⟨-, s₁, m₁, s₂, m₂, d1, d2, d3⟩ := Float128ppc.C99_exact x hx hf c1
    have hsum := d3.2 ⟨k, e, hk, by omega, hv⟩
    obtain ⟨y, σ, m, y1, y2, y3, -⟩ := Float128ppc.C27_float128ppc_exact ⟨hi, lo⟩ d1 d2 hk (hsum.trans hv)
    refine ⟨_, x', y, c1, y1, ?_⟩
    rw [hsum, hsv] at y3
    have hm0 : 0 ≤ m := datum_nonneg y2
    have hmn : m = n := by rw [← BigFloat.signed_abs (s := σ) hm0, y3, BigFloat.signed_abs hnq.le]
    rw [y2]
    subst hmn
    unfold signed at y3
    cases σ <;> cases s <;> simp at y3 ⊢ <;> linarith

/-- C121, the bounds are the best: 2^11 + 1, 2^113 + 1 and 2^64 + 1 are not numbers of the formats. -/
theorem C121_best (s : Bool) : (∀ f : Binary16.Float, half.decode f.bits.toNat ≠ .num s (2 ^ 11 + 1)) ∧
    (∀ f : Binary128.Float, quad.decode f.code ≠ .num s (2 ^ 113 + 1)) ∧ ∀ f : Float80x86.Float, f.Canonical → f.val ≠ .num s (2 ^ 64 + 1) :=
  ⟨fun _ => integer_missing half s _, fun _ => integer_missing quad s _, fun f hf => by
    rw [Float80x86.val_canonical hf]; exact integer_missing extended s _⟩

/-- C121, for float128ppc: a number 2^106 + 1 or its negative is never kept, although the pair (2^106, 1) exists. -/
theorem C121_best_float128ppc (x : BigFloat) (hx : x.WF) {s : Bool} (hd : x.datum = .num s (2 ^ 106 + 1)) {f : Float128ppc.Float} {acc : Accuracy}
    {x' : BigFloat} (h : Float128ppc.newFromBig x = .ok ((f, acc), x')) : acc = .exact ∧ ∃ s₁ m₁ s₂ m₂, double.decode f.high.toNat = .num s₁ m₁ ∧
      double.decode f.low.toNat = .num s₂ m₂ ∧ signed s₁ m₁ + signed s₂ m₂ ≠ signed s (2 ^ 106 + 1) := by
  obtain ⟨hneg, -, hfin⟩ := BigFloat.datum_inj_form hx hd
  obtain ⟨hf, hm⟩ := hfin (by norm_num)
  have hsv : x.sval = signed s (2 ^ 106 + 1) := by rw [BigFloat.sval_finite hf, hneg, hm]
  obtain ⟨ha, s₁, m₁, s₂, m₂, d1, d2, d3⟩ := Float128ppc.C99_exact x hx hf h
  refine ⟨ha, s₁, m₁, s₂, m₂, d1, d2, fun hc => ?_⟩
  rw [hsv] at d3
  obtain ⟨K, q, hK, -, hv⟩ := d3.1 hc
  refine odd_form (p := 106) (by norm_num) hK (q := q) ?_
  rw [← hv, BigFloat.signed_abs (by norm_num)]

/-- C121 is not vacuous: -1500 for binary16, and 2^64 - 1 and its negative, the integers of all ones, for the others. -/
def someInteger : BigFloat := { prec := 53, mode := .toPositiveInf, acc := .exact, form := .finite, neg := true, mant := 1500, exp := 11 }

/-- 2^64 - 1 or its negative. -/
def allOnes (s : Bool) : BigFloat := { prec := 64, mode := .toZero, acc := .exact, form := .finite, neg := s, mant := 2 ^ 64 - 1, exp := 64 }

theorem someInteger_wf : someInteger.WF :=
  ⟨by decide, fun _ => by decide, fun _ => by decide, fun _ => by decide, fun _ => by decide, fun _ => ⟨1500, 0, by decide, by decide⟩⟩

theorem someInteger_datum : someInteger.datum = .num true (1500 : ℕ) := by rw [BigFloat.datum_lit 11 rfl (by decide)]; norm_num [someInteger]

theorem allOnes_wf (s : Bool) : (allOnes s).WF := by
  cases s <;> exact
    ⟨by decide, fun _ => by decide, fun _ => by decide, fun _ => by decide, fun _ => by decide, fun _ => ⟨2 ^ 64 - 1, 0, by decide, by decide⟩⟩

theorem allOnes_datum (s : Bool) : (allOnes s).datum = .num s (2 ^ 64 - 1 : ℕ) := by
  rw [BigFloat.datum_lit 64 rfl (by cases s <;> decide +kernel)]; norm_num [allOnes]

example := C121_binary16 someInteger someInteger_wf someInteger_datum (by norm_num)
example := C121_binary128 (allOnes true) (allOnes_wf true) (allOnes_datum true) (by norm_num)
example := C121_float80x86 (allOnes true) (allOnes_wf true) (allOnes_datum true) (by norm_num)
example := C121_float128ppc (allOnes true) (allOnes_wf true) (allOnes_datum true) (by norm_num)
example := C121_uint64 (n := 0xFFFFFFFFFFFFFFFF) (allOnes false) (allOnes_wf false) (allOnes_datum false)

/-- 2^106 + 1. -/
def tooLong : BigFloat := { prec := 107, mode := .toNearestEven, acc := .exact, form := .finite, neg := false, mant := 2 ^ 106 + 1, exp := 107 }

theorem tooLong_wf : tooLong.WF :=
  ⟨by decide, fun _ => by decide, fun _ => by decide, fun _ => by decide, fun _ => by decide, fun _ => ⟨2 ^ 106 + 1, 0, by decide, by decide⟩⟩

theorem tooLong_datum : tooLong.datum = .num false (2 ^ 106 + 1) := by rw [BigFloat.datum_lit 107 rfl (by decide +kernel)]; norm_num [tooLong]

example : ∃ f acc x', Float128ppc.newFromBig tooLong = .ok ((f, acc), x') ∧ acc = .exact ∧ ∃ s₁ m₁ s₂ m₂, double.decode f.high.toNat = .num s₁ m₁ ∧
    double.decode f.low.toNat = .num s₂ m₂ ∧ signed s₁ m₁ + signed s₂ m₂ ≠ signed false (2 ^ 106 + 1) := by
  obtain ⟨⟨⟨f, acc⟩, x'⟩, h⟩ : ∃ r, Float128ppc.newFromBig tooLong = .ok r := by
    have h : (Float128ppc.newFromBig tooLong).toBool = true := by decide +kernel
    cases hr : Float128ppc.newFromBig tooLong with
    | ok r => exact ⟨r, rfl⟩
    | error e => rw [hr] at h; cases h
  exact ⟨f, acc, x', h, C121_best_float128ppc tooLong tooLong_wf tooLong_datum h⟩

end GoFloat
