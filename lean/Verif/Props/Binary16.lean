import Verif.Proofs.Sample
import Verif.Proofs.Binary16
/-
Properties of package binary16 (C01 to C12 of properties.jsonl).

Values are those of `Spec.Format.decode half`. Where a claim of the documentation is false of the code, the
claim is kept as a `Prop` definition, refuted with a witness, and followed by the part that holds.
-/
namespace GoFloat.Binary16
open Spec

/-! ### C01 -/

/-- C01: the accessors are the sign, exponent and fraction fields, and lose nothing. -/
theorem C01_binary16_fields (b : BitVec 16) :
    (newFromBits b).bitsOf = b ∧
    ((newFromBits b).signbit = true ↔ 2 ^ 15 ≤ b.toNat) ∧
    (newFromBits b).exp = (b.toNat / 2 ^ 10 % 2 ^ 5 : ℕ) ∧
    (newFromBits b).frac.toNat = b.toNat % 2 ^ 10 ∧
    b.toNat = (if (newFromBits b).signbit then 2 ^ 15 else 0) + (newFromBits b).exp.toNat * 2 ^ 10
      + (newFromBits b).frac.toNat := by
  have hlt := b.isLt
  refine ⟨rfl, ?_, exp_eq _, frac_eq _, ?_⟩
  · rw [signbit_eq, decide_eq_true_eq]; show b.toNat / 2 ^ 15 % 2 = 1 ↔ _; omega
  · rw [exp_eq, frac_eq, signbit_eq, Int.toNat_natCast]
    show b.toNat = (if decide (b.toNat / 2 ^ 15 % 2 = 1) = true then 2 ^ 15 else 0)
      + b.toNat / 2 ^ 10 % 2 ^ 5 * 2 ^ 10 + b.toNat % 2 ^ 10
    split <;> rename_i h <;> simp only [decide_eq_true_eq] at h <;> omega

example : (newFromBits 0xC900).signbit = true ∧ (newFromBits 0xC900).exp = 18 ∧ (newFromBits 0xC900).frac = 0x100 := by decide

/-! ### C02 -/

/-- C02: `Big` never panics and returns the IEEE 754 value of the bits, exactly, with precision 11. -/
theorem C02_binary16_big (f : Float) :
    ∃ x nan, f.big = .ok (x, nan) ∧ x.prec = 11 ∧ x.mode = .toNearestEven ∧ x.acc = .exact ∧ x.WF ∧
      Decoded (half.decode f.bits.toNat) x nan := big_spec f

-- a subnormal, a normal, an infinity and a NaN, as the specification reads them
example : half.decode 0x8001 = .num true ((2 : ℚ) ^ (-14 : ℤ) * (1 / 2 ^ 10)) := by
  simp [Format.decode, half, Format.bias]
example : half.decode 0x3555 = .num false ((2 : ℚ) ^ (-2 : ℤ) * (1 + 341 / 2 ^ 10)) := by
  simp [Format.decode, half, Format.bias]
example : half.decode 0xFC00 = .inf true ∧ half.decode 0x7C01 = .nan false := by
  simp [Format.decode, half]

/-! ### C03 -/

/-- C03: every half that is not a NaN survives `NewFromBig(f.Big())`, bit for bit and reported exact. -/
theorem C03_binary16_big_roundtrip (f : Float) (h : ∀ s, half.decode f.bits.toNat ≠ .nan s) :
    ∃ x, f.big = .ok (x, false) ∧ newFromBig x = .ok (f, .exact) := by
  obtain ⟨x, nan, hb, -, -, -, hwf, hd⟩ := big_spec f
  cases hdec : half.decode f.bits.toNat with
  | nan s => exact absurd hdec (h s)
  | inf s => rw [hdec] at hd; exact ⟨x, by rw [hb, hd.1], newFromBig_of_decode hwf (by rw [hd.2, hdec])⟩
  | num s m => rw [hdec] at hd; exact ⟨x, by rw [hb, hd.1], newFromBig_of_decode hwf (by rw [hd.2, hdec])⟩

-- the largest subnormal meets the hypothesis
example : ∀ s, half.decode (⟨0x83FF⟩ : Float).bits.toNat ≠ .nan s := by simp [Format.decode, half]

/-! ### C04 -/

/-- C04: `Float64` is exact; a NaN becomes the NaN of package math with the same sign. -/
theorem C04_binary16_float64 (f : Float) : ∃ r, f.float64 = .ok (r, .exact) ∧
    match half.decode f.bits.toNat with
    | .nan s => r = if s then 0xFFF8000000000001 else 0x7FF8000000000001
    | d => double.decode r.toNat = d := by
  obtain ⟨x, nan, hwf, hdec, hr⟩ := float64_spec f
  obtain ⟨-, -, -, a4, a5, a6⟩ := half_double
  have h1 := (toF64_spec hwf hdec).1
  have h2 := toF64_exact (F := half) (by decide) a4 a5 a6 hwf hdec
  rw [hr]
  cases hd : half.decode f.bits.toNat with
  | nan s => exact ⟨_, by rw [h1 s hd], by cases s <;> rfl⟩
  | inf s =>
    rw [hd] at h2; have := h2 (by simp)
    exact ⟨(toF64 x nan).1, by rw [← this.2], this.1⟩
  | num s m =>
    rw [hd] at h2; have := h2 (by simp)
    exact ⟨(toF64 x nan).1, by rw [← this.2], this.1⟩

/-- C04: `Float32` is exact; a NaN becomes the quiet NaN with the same sign. -/
theorem C04_binary16_float32 (f : Float) : ∃ r, f.float32 = .ok (r, .exact) ∧
    match half.decode f.bits.toNat with
    | .nan s => r = if s then 0xFFC00000 else 0x7FC00000
    | d => single.decode r.toNat = d := by
  obtain ⟨x, nan, hwf, hdec, hr⟩ := float32_spec f
  obtain ⟨-, -, -, a4, a5, a6⟩ := half_single
  have h1 := (toF32_spec hwf hdec).1
  have h2 := toF32_exact (F := half) (by decide) a4 a5 a6 hwf hdec
  rw [hr]
  cases hd : half.decode f.bits.toNat with
  | nan s => exact ⟨_, by rw [h1 s hd], rfl⟩
  | inf s =>
    rw [hd] at h2; have := h2 (by simp)
    exact ⟨(toF32 x nan).1, by rw [← this.2], this.1⟩
  | num s m =>
    rw [hd] at h2; have := h2 (by simp)
    exact ⟨(toF32 x nan).1, by rw [← this.2], this.1⟩

example : (⟨0x8001⟩ : Float).float64 = .ok (0xBE70000000000000, .exact) := by decide +kernel
example : (⟨0x8001⟩ : Float).float32 = .ok (0xB3800000, .exact) := by decide +kernel

/-! ### C05 -/

/-- C05: `NewFromFloat64(f.Float64())` is `f`, or the canonical NaN with the sign of `f`. -/
theorem C05_binary16_float64_roundtrip (f : Float) : ∃ r, f.float64 = .ok (r, .exact) ∧
    newFromFloat64 r = .ok (match half.decode f.bits.toNat with | .nan s => if s then NegNaN else NaN | _ => f, .exact) := by
  obtain ⟨r, h1, h2⟩ := C04_binary16_float64 f
  refine ⟨r, h1, ?_⟩
  cases hd : half.decode f.bits.toNat with
  | nan s =>
    rw [hd] at h2; simp only at h2; rw [h2]
    show newFromFloat64 _ = .ok (if s then NegNaN else NaN, .exact)
    cases s <;> decide
  | inf s => rw [hd] at h2; exact newFromFloat64_of_decode (by rw [hd]; simp) (by rw [hd]; exact h2)
  | num s m => rw [hd] at h2; exact newFromFloat64_of_decode (by rw [hd]; simp) (by rw [hd]; exact h2)

/-- C05: `NewFromFloat32(f.Float32())` is `f`, or the canonical NaN with the sign of `f`. -/
theorem C05_binary16_float32_roundtrip (f : Float) : ∃ r, f.float32 = .ok (r, .exact) ∧
    newFromFloat32 r = .ok (match half.decode f.bits.toNat with | .nan s => if s then NegNaN else NaN | _ => f, .exact) := by
  obtain ⟨r, h1, h2⟩ := C04_binary16_float32 f
  refine ⟨r, h1, ?_⟩
  have key : ∀ g : Float, newFromFloat64 (f32to64 r) = .ok (g, .exact) → newFromFloat32 r = .ok (g, .exact) := by
    intro g hg
    obtain ⟨r', h3, -⟩ := C04_binary16_float32 g
    unfold newFromFloat32
    rw [hg]
    simp only [bind, Except.bind, pure, Except.pure, if_true, h3]
  obtain ⟨-, hw⟩ := f32to64_decode r
  cases hd : half.decode f.bits.toNat with
  | nan s =>
    rw [hd] at h2; simp only at h2; apply key; rw [h2]
    show newFromFloat64 _ = .ok (if s then NegNaN else NaN, .exact)
    cases s <;> decide
  | inf s =>
    rw [hd] at h2; apply key
    exact newFromFloat64_of_decode (by rw [hd]; simp) (by rw [hw (by rw [h2]; simp), hd]; exact h2)
  | num s m =>
    rw [hd] at h2; apply key
    exact newFromFloat64_of_decode (by rw [hd]; simp) (by rw [hw (by rw [h2]; simp), hd]; exact h2)

example : half.decode (⟨0x0001⟩ : Float).bits.toNat ≠ .nan false := by simp [Format.decode, half]

/-! ### C06 -/

/-- The claim of C06 for one input: the result is the correctly rounded half. -/
def Nearest64 (x : F64) : Prop := ∃ f acc, newFromFloat64 x = .ok (f, acc) ∧
  match double.decode x.toNat with
  | .nan _ => True
  | .inf s => half.decode f.bits.toNat = .inf s
  | .num s m => half.RoundsTo s m f.bits.toNat

/-- The same for `NewFromFloat32`. -/
def Nearest32 (x : F32) : Prop := ∃ f acc, newFromFloat32 x = .ok (f, acc) ∧
  match single.decode x.toNat with
  | .nan _ => True
  | .inf s => half.decode f.bits.toNat = .inf s
  | .num s m => half.RoundsTo s m f.bits.toNat

/-- C06, full statement (false, see below). -/
def C06_full : Prop := ∀ x, Nearest64 x

/-- C06 is false for subnormals: 1.75 * 2^-24 becomes 2^-24 although 2^-23 is nearer. -/
theorem C06_false_subnormal : ¬ Nearest64 0x3E7C000000000000 := by
  rintro ⟨f, acc, h, hr⟩
  have he : newFromFloat64 0x3E7C000000000000 = .ok (⟨0x0001⟩, .exact) := by decide +kernel
  rw [he] at h
  simp only [Except.ok.injEq, Prod.mk.injEq] at h
  rw [← h.1] at hr
  have hd : double.decode (0x3E7C000000000000 : F64).toNat = .num false ((2 : ℚ) ^ (-24 : ℤ) * (7 / 4)) := by
    simp [Format.decode, double, Format.bias]; norm_num
  rw [hd] at hr
  simp only [Format.RoundsTo] at hr
  rw [if_neg (by norm_num [Format.overflowAt, half, Format.bias])] at hr
  obtain ⟨r, hr1, hr2, -⟩ := hr
  have h1 : half.decode 1 = .num false ((2 : ℚ) ^ (-24 : ℤ)) := by simp [Format.decode, half, Format.bias]; norm_num
  have h2 : half.decode 2 = .num false ((2 : ℚ) ^ (-23 : ℤ)) := by simp [Format.decode, half, Format.bias]; norm_num
  rw [show (0x0001 : BitVec 16).toNat = 1 from rfl, h1] at hr1
  simp only [Datum.num.injEq, true_and] at hr1
  have := hr2 2 _ _ h2
  rw [← hr1] at this
  norm_num [signed, abs_le] at this

/-- C06 is false beyond the range: 2^17 becomes 0. -/
theorem C06_false_overflow : ¬ Nearest64 0x4100000000000000 := by
  rintro ⟨f, acc, h, hr⟩
  have he : newFromFloat64 0x4100000000000000 = .ok (⟨0x0000⟩, .above) := by decide +kernel
  rw [he] at h
  simp only [Except.ok.injEq, Prod.mk.injEq] at h
  rw [← h.1] at hr
  have hd : double.decode (0x4100000000000000 : F64).toNat = .num false 131072 := by
    simp [Format.decode, double, Format.bias]; norm_num
  rw [hd] at hr
  simp only [Format.RoundsTo] at hr
  rw [if_pos (by norm_num [Format.overflowAt, half, Format.bias])] at hr
  simp [Format.decode, half] at hr

theorem C06_false : ¬ C06_full := fun h => C06_false_subnormal (h _)

/-- C06, the part that holds: `NewFromFloat64` rounds correctly every number of the normal range
`2^-14 ≤ |x| < 2^16` (so also overflow to infinity from 65520 on), every double that is a half, the zeros and
the infinities. Missing, because false: inexact subnormals, and `|x| ≥ 2^16`. -/
theorem C06_partial (x : F64)
    (h : (∃ s m, double.decode x.toNat = .num s m ∧ ((2 : ℚ) ^ (-14 : ℤ) ≤ m ∧ m < 2 ^ (16 : ℤ) ∨ half.Representable s m)) ∨
      ∃ s, double.decode x.toNat = .inf s) : Nearest64 x := by
  rcases h with ⟨s, m, hd, ⟨h1, h2⟩ | ⟨c, hc⟩⟩ | ⟨s, hd⟩
  · obtain ⟨y, f, hyw, hyd, hr, hf⟩ := newFromFloat64_normal hd h1 h2
    refine ⟨f, _, hr, ?_⟩
    rw [hd, hf]
    exact (toIEEE_spec half (by decide) (by decide) (by decide) hyw).2.1 s m hyd
  · obtain ⟨n, hn, hm, -, -⟩ := half.code_of_decode hc
    have hlt := code_lt s hn.le
    have hfd : half.decode (⟨BitVec.ofNat 16 (half.signPart s + n)⟩ : Float).bits.toNat = .num s m := by
      show half.decode (BitVec.ofNat 16 _).toNat = _
      rw [BitVec.toNat_ofNat, Nat.mod_eq_of_lt hlt, half.decode_code s hn, hm]
    refine ⟨_, _, newFromFloat64_of_decode (f := ⟨BitVec.ofNat 16 (half.signPart s + n)⟩) (by rw [hfd]; simp)
      (by rw [hfd, hd]), ?_⟩
    rw [hd]
    have hnn : F64.isNaN x = false := by rw [Bool.eq_false_iff, Ne, isNaN64_iff, hd]; simp
    obtain ⟨y, -, hyd, hyw, -, -, -⟩ := newFloat_spec x hnn
    rw [hd] at hyd
    have h1 := (toIEEE_spec half (by decide) (by decide) (by decide) hyw).2.1 s m hyd
    have h2 := (toIEEE_exact half (by decide) (by decide) hyw hyd).2 s n hn (by rw [hm])
    rw [h2] at h1
    show half.RoundsTo s m (BitVec.ofNat 16 _).toNat
    rw [BitVec.toNat_ofNat, Nat.mod_eq_of_lt hlt]; exact h1
  · refine ⟨_, _, newFromFloat64_inf hd, ?_⟩
    rw [hd]; cases s <;> simp [Format.decode, half, NegInf, Inf]

-- 1/3 lies in the normal range
example : ∃ s m, double.decode (0x3FD5555555555555 : F64).toNat = .num s m ∧ (2 : ℚ) ^ (-14 : ℤ) ≤ m ∧ m < 2 ^ (16 : ℤ) :=
  ⟨false, (2 : ℚ) ^ (-2 : ℤ) * (1 + 0x5555555555555 / 2 ^ 52), by simp [Format.decode, double, Format.bias],
    by norm_num, by norm_num⟩

/-- C06, the part that holds, for `NewFromFloat32`. -/
theorem C06_partial32 (x : F32)
    (h : (∃ s m, single.decode x.toNat = .num s m ∧ ((2 : ℚ) ^ (-14 : ℤ) ≤ m ∧ m < 2 ^ (16 : ℤ) ∨ half.Representable s m)) ∨
      ∃ s, single.decode x.toNat = .inf s) : Nearest32 x := by
  have hw := (f32to64_decode x).2 (by rcases h with ⟨s, m, h, -⟩ | ⟨s, h⟩ <;> rw [h] <;> simp)
  obtain ⟨f, acc, h1, h2⟩ := C06_partial (f32to64 x) (by rw [hw]; exact h)
  rw [hw] at h2
  exact ⟨f, acc, newFromFloat32_fst h1, h2⟩

example := C06_partial32 0xBFB00000 (.inl ⟨true, 11 / 8, Sample.x_single, .inl ⟨by norm_num, by norm_num⟩⟩)

/-- C06, subnormal range: the result of `NewFromFloat64` is one of the two neighbouring halves (closer than one
unit `2^-24`), though not always the nearer one. -/
theorem C06_subnormal_partial (x : F64) {s : Bool} {m : ℚ} (hd : double.decode x.toNat = .num s m)
    (h1 : (2 : ℚ) ^ (-24 : ℤ) ≤ m) (h2 : m < 2 ^ (-14 : ℤ)) :
    ∃ f acc r, newFromFloat64 x = .ok (f, acc) ∧ half.decode f.bits.toNat = .num s r ∧ |m - r| < 2 ^ (-24 : ℤ) := by
  obtain ⟨f, acc, n, hr, hf, hn, habs⟩ := newFromFloat64_subnormal hd h1 h2
  obtain ⟨f1, f2, f3, f4, f5⟩ := half_facts
  refine ⟨f, acc, n * 2 ^ (-24 : ℤ), hr, ?_, habs⟩
  rw [hf, half.decode_code s (by rw [f3]; omega)]
  have := half.magc_eq (k := 0) (N := n) (by rw [f4]; omega) (Or.inl rfl)
  rw [Nat.zero_mul, Nat.zero_add, f1] at this
  rw [this]; simp

example : double.decode (0x3E7C000000000000 : F64).toNat = .num false ((2 : ℚ) ^ (-24 : ℤ) * (7 / 4)) ∧
    (2 : ℚ) ^ (-24 : ℤ) ≤ (2 : ℚ) ^ (-24 : ℤ) * (7 / 4) ∧ (2 : ℚ) ^ (-24 : ℤ) * (7 / 4) < 2 ^ (-14 : ℤ) :=
  ⟨by simp [Format.decode, double, Format.bias]; norm_num, by norm_num, by norm_num⟩

/-! ### C07 -/

/-- The claim of C07 for `NewFromBig`. -/
def AccurateBig (x : BigFloat) : Prop := ∃ f acc, newFromBig x = .ok (f, acc) ∧
  AccuracyTrue acc (half.decode f.bits.toNat) x.datum

/-- The claim of C07 for `NewFromFloat64`. -/
def Accurate64 (x : F64) : Prop := ∃ f acc, newFromFloat64 x = .ok (f, acc) ∧
  AccuracyTrue acc (half.decode f.bits.toNat) (double.decode x.toNat)

/-- C07, full statement (false, see below). -/
def C07_full : Prop := (∀ x : BigFloat, x.WF → AccurateBig x) ∧ ∀ x : F64, F64.isNaN x = false → Accurate64 x

/-- `-(1 + 2^-11)`, with precision 12. -/
def negInexact : BigFloat :=
  { prec := 12, mode := .toNearestEven, acc := .exact, form := .finite, neg := true, mant := 2049, exp := 1 }

theorem negInexact_wf : negInexact.WF :=
  ⟨by decide, fun _ => by decide, fun _ => by decide, fun _ => by decide, fun _ => by decide,
    fun _ => ⟨2049, 0, by decide, by decide⟩⟩

/-- C07 is false for negative numbers: `-(1 + 2^-11)` becomes `-1`, which is larger, but Below is reported. -/
theorem C07_false_negative : ¬ AccurateBig negInexact := by
  rintro ⟨f, acc, h, ha⟩
  have he : newFromBig negInexact = .ok (⟨0xBC00⟩, .below) := by decide +kernel
  rw [he] at h
  simp only [Except.ok.injEq, Prod.mk.injEq] at h
  rw [← h.1, ← h.2] at ha
  obtain ⟨a, b, h1, h2, h3⟩ := ha
  have hd : half.decode (0xBC00 : BitVec 16).toNat = .num true 1 := by simp [Format.decode, half, Format.bias]
  rw [hd] at h1
  have hb : negInexact.datum = .num true (2049 / 2048) := by
    rw [BigFloat.datum_lit 12 rfl (by decide)]; norm_num [negInexact]
  rw [hb] at h2
  simp only [Datum.key, Option.some.injEq] at h1 h2
  rw [← h1, ← h2] at h3
  norm_num [keyLt, signed] at h3

/-- C07 is false for `NewFromFloat64`: 1/3 becomes 0x3555, and Exact is reported. -/
theorem C07_false_float64 : ¬ Accurate64 0x3FD5555555555555 := by
  rintro ⟨f, acc, h, ha⟩
  have he : newFromFloat64 0x3FD5555555555555 = .ok (⟨0x3555⟩, .exact) := by decide +kernel
  rw [he] at h
  simp only [Except.ok.injEq, Prod.mk.injEq] at h
  rw [← h.1, ← h.2] at ha
  obtain ⟨a, b, h1, h2, h3⟩ := ha
  have hd : half.decode (0x3555 : BitVec 16).toNat = .num false ((2 : ℚ) ^ (-2 : ℤ) * (1 + 341 / 2 ^ 10)) := by
    simp [Format.decode, half, Format.bias]
  have hb : double.decode (0x3FD5555555555555 : F64).toNat = .num false ((2 : ℚ) ^ (-2 : ℤ) * (1 + 0x5555555555555 / 2 ^ 52)) := by
    simp [Format.decode, double, Format.bias]
  rw [hd] at h1; rw [hb] at h2
  simp only [Datum.key, Option.some.injEq] at h1 h2
  rw [← h1, ← h2] at h3
  norm_num [signed] at h3

theorem C07_false : ¬ C07_full := fun h => C07_false_negative (h.1 _ negInexact_wf)

/-- C07, the part that holds for `NewFromBig`: with magnitude in `[2^-14, 2^16)`, Exact is reported exactly for the
halves, and the accuracy of a positive number is true. Missing, because false: negative inexact numbers (Below
instead of Above), inexact subnormals (Exact instead of Below), overflow. -/
theorem C07_partial (x : BigFloat) (hx : x.WF) {s : Bool} {m : ℚ} (hd : x.datum = .num s m)
    (h1 : (2 : ℚ) ^ (-14 : ℤ) ≤ m) (h2 : m < 2 ^ (16 : ℤ)) :
    ∃ f acc, newFromBig x = .ok (f, acc) ∧
      (acc = .exact ↔ half.decode f.bits.toNat = .num s m) ∧
      (s = false → AccuracyTrue acc (half.decode f.bits.toNat) (.num s m)) := by
  have hm0 : m ≠ 0 := by have : (0 : ℚ) < 2 ^ (-14 : ℤ) := by positivity
                         intro h; linarith
  obtain ⟨hneg, -, hfin⟩ := BigFloat.datum_inj_form hx hd
  obtain ⟨hf, hmag⟩ := hfin hm0
  have hlo : -14 < x.exp := BigFloat.exp_gt_of_mag (by rw [hmag]; exact h1)
  have hhi : x.exp ≤ 16 := BigFloat.exp_lt_of_mag (hx.mant_pos hf) (by rw [hmag]; exact h2)
  obtain ⟨b, acc, n, hr, hb, hn1, hn2, hn3, -, hacc⟩ := newFromBig_range hx hf (by omega) (by omega)
  have hacc := hacc (by omega)
  have hdec : half.decode b.toNat = .num s (half.magc n) := by rw [hb, half.decode_code _ hn1, hneg]
  refine ⟨⟨b⟩, acc, hr, ?_, ?_⟩
  · show acc = .exact ↔ half.decode b.toNat = _
    rw [hdec, hacc, Datum.num.injEq, hmag]
    by_cases h : half.magc n = m
    · simp [h]
    · simp [h]
  · rintro rfl
    show AccuracyTrue acc (half.decode b.toNat) _
    rw [hdec, hacc, hmag]
    rw [hmag] at hn2
    by_cases h : half.magc n = m
    · rw [if_pos h, h]; exact accuracyTrue_refl (by simp)
    · rw [if_neg h]
      refine ⟨_, _, rfl, rfl, Or.inr ⟨rfl, ?_⟩⟩
      simp only [signed]
      exact lt_of_le_of_ne hn2 h

-- 1 + 2^-11 meets the hypotheses
example : ({ negInexact with neg := false } : BigFloat).datum = .num false (2049 / 2048) := by
  rw [BigFloat.datum_lit 12 rfl (by decide)]; norm_num [negInexact]

/-- C07, the part that holds for `NewFromFloat64`: a double that is a half is converted exactly and reported exact. -/
theorem C07_float64_partial (x : F64) {s : Bool} {m : ℚ} (hd : double.decode x.toNat = .num s m)
    (hr : half.Representable s m) : ∃ f, newFromFloat64 x = .ok (f, .exact) ∧ half.decode f.bits.toNat = .num s m := by
  obtain ⟨c, hc⟩ := hr
  obtain ⟨n, hn, hm, -, -⟩ := half.code_of_decode hc
  have hlt := code_lt s hn.le
  have hfd : half.decode (⟨BitVec.ofNat 16 (half.signPart s + n)⟩ : Float).bits.toNat = .num s m := by
    show half.decode (BitVec.ofNat 16 _).toNat = _
    rw [BitVec.toNat_ofNat, Nat.mod_eq_of_lt hlt, half.decode_code s hn, hm]
  exact ⟨_, newFromFloat64_of_decode (f := ⟨BitVec.ofNat 16 (half.signPart s + n)⟩) (by rw [hfd]; simp)
      (by rw [hfd, hd]), hfd⟩

example := C07_float64_partial 0xBFF6000000000000 Sample.x_double ⟨_, Sample.x_half⟩

/-- C07, the part that holds for `NewFromFloat32`: a float32 that is a half is converted exactly and reported exact. -/
theorem C07_float32_partial (x : F32) {s : Bool} {m : ℚ} (hd : single.decode x.toNat = .num s m)
    (hr : half.Representable s m) : ∃ f, newFromFloat32 x = .ok (f, .exact) ∧ half.decode f.bits.toNat = .num s m := by
  have hw := (f32to64_decode x).2 (by rw [hd]; simp)
  obtain ⟨f, h1, h2⟩ := C07_float64_partial (f32to64 x) (by rw [hw, hd]) hr
  exact ⟨f, newFromFloat32_fst h1, h2⟩

example : half.Representable true (3 / 4) := ⟨0xBA00, by simp [Format.decode, half, Format.bias]; norm_num⟩

/-! ### C08 -/

/-- The claim of C08 for one input. -/
def NearestBig (x : BigFloat) : Prop := ∃ f acc, newFromBig x = .ok (f, acc) ∧
  ∀ s m, x.datum = .num s m → half.RoundsTo s m f.bits.toNat

/-- C08, full statement (false, see below). -/
def C08_full : Prop := ∀ x : BigFloat, x.WF → NearestBig x

/-- `1 + 3 * 2^-12`, with precision 13. -/
def nearUpper : BigFloat :=
  { prec := 13, mode := .toNearestEven, acc := .exact, form := .finite, neg := false, mant := 4099, exp := 1 }

theorem nearUpper_wf : nearUpper.WF :=
  ⟨by decide, fun _ => by decide, fun _ => by decide, fun _ => by decide, fun _ => by decide,
    fun _ => ⟨4099, 0, by decide, by decide⟩⟩

/-- C08 is false: `1 + 3 * 2^-12` becomes 1 although `1 + 2^-10` is nearer. -/
theorem C08_false : ¬ C08_full := by
  intro h
  obtain ⟨f, acc, h, hr⟩ := h nearUpper nearUpper_wf
  have he : newFromBig nearUpper = .ok (⟨0x3C00⟩, .below) := by decide +kernel
  rw [he] at h
  simp only [Except.ok.injEq, Prod.mk.injEq] at h
  have hb : nearUpper.datum = .num false (4099 / 4096) := by
    rw [BigFloat.datum_lit 13 rfl (by decide)]; norm_num [nearUpper]
  have hr := hr _ _ hb
  rw [← h.1] at hr
  simp only [Format.RoundsTo] at hr
  rw [if_neg (by norm_num [Format.overflowAt, half, Format.bias])] at hr
  obtain ⟨r, hr1, hr2, -⟩ := hr
  have h1 : half.decode 0x3C00 = .num false 1 := by simp [Format.decode, half, Format.bias]
  have h2 : half.decode 0x3C01 = .num false (1025 / 1024) := by simp [Format.decode, half, Format.bias]; norm_num
  rw [show (0x3C00 : BitVec 16).toNat = 0x3C00 from rfl, h1] at hr1
  simp only [Datum.num.injEq, true_and] at hr1
  have := hr2 _ _ _ h2
  rw [← hr1] at this
  norm_num [signed, abs_le] at this

/-- C08, the part that holds: with magnitude in `[2^-24, 2^16)`, `NewFromBig` rounds toward zero: the result has the
sign of `x` and the largest magnitude not exceeding that of `x`. In particular halves are kept. Missing, because
false: rounding to nearest, overflow, underflow. -/
theorem C08_partial (x : BigFloat) (hx : x.WF) {s : Bool} {m : ℚ} (hd : x.datum = .num s m)
    (h1 : (2 : ℚ) ^ (-24 : ℤ) ≤ m) (h2 : m < 2 ^ (16 : ℤ)) :
    ∃ f acc r, newFromBig x = .ok (f, acc) ∧ half.decode f.bits.toNat = .num s r ∧ r ≤ m ∧
      (∀ c' s' r', half.decode c' = .num s' r' → r' ≤ m → r' ≤ r) ∧
      (half.Representable s m → r = m ∧ acc = .exact) := by
  have hm0 : m ≠ 0 := by have : (0 : ℚ) < 2 ^ (-24 : ℤ) := by positivity
                         intro h; linarith
  obtain ⟨hneg, -, hfin⟩ := BigFloat.datum_inj_form hx hd
  obtain ⟨hf, hmag⟩ := hfin hm0
  have hlo : -24 < x.exp := BigFloat.exp_gt_of_mag (by rw [hmag]; exact h1)
  have hhi : x.exp ≤ 16 := BigFloat.exp_lt_of_mag (hx.mant_pos hf) (by rw [hmag]; exact h2)
  obtain ⟨b, acc, n, hr, hb, hn1, hn2, hn3, ha1, ha2⟩ := newFromBig_range hx hf (by omega) (by omega)
  rw [hmag] at hn2 hn3
  have hmax : ∀ c' s' r', half.decode c' = .num s' r' → r' ≤ m → r' ≤ half.magc n := by
    intro c' s' r' hc hle
    obtain ⟨n', -, hr', -, -⟩ := half.code_of_decode hc
    rw [hr'] at hle ⊢
    have : n' < n + 1 := half.magc_strictMono.lt_iff_lt.1 (hle.trans_lt hn3)
    exact half.magc_strictMono.monotone (by omega)
  refine ⟨⟨b⟩, acc, half.magc n, hr, ?_, hn2, hmax, ?_⟩
  · show half.decode b.toNat = _
    rw [hb, half.decode_code _ hn1, hneg]
  · rintro ⟨c, hc⟩
    have heq : half.magc n = m := le_antisymm hn2 (hmax c s m hc le_rfl)
    refine ⟨heq, ?_⟩
    by_cases h : x.exp ≤ -14
    · exact ha1 h
    · rw [ha2 (by omega), hmag, if_pos heq]

example : nearUpper.datum = .num false (4099 / 4096) ∧ (2 : ℚ) ^ (-24 : ℤ) ≤ 4099 / 4096 ∧ (4099 / 4096 : ℚ) < 2 ^ (16 : ℤ) :=
  ⟨by rw [BigFloat.datum_lit 13 rfl (by decide)]; norm_num [nearUpper], by norm_num, by norm_num⟩

/-! ### C09 -/

/-- C09, full statement for `NewFromBig` (false, see below). -/
def C09_full : Prop := ∀ x : BigFloat, x.WF → ∀ s m, x.datum = .num s m →
  ∃ f acc, newFromBig x = .ok (f, acc) ∧ (∀ s', half.decode f.bits.toNat ≠ .nan s') ∧
    (65520 ≤ m → half.decode f.bits.toNat = .inf s)

/-- C09 is false, and not at isolated points: every number with magnitude in `[65600, 131072)` becomes a NaN. -/
theorem C09_false_nan (x : BigFloat) (hx : x.WF) {s : Bool} {m : ℚ} (hd : x.datum = .num s m) (h1 : 65600 ≤ m)
    (h2 : m < 131072) : ∃ f acc, newFromBig x = .ok (f, acc) ∧ half.decode f.bits.toNat = .nan s := by
  obtain ⟨hneg, -, hfin⟩ := BigFloat.datum_inj_form hx hd
  obtain ⟨hf, hmag⟩ := hfin (by intro h; linarith)
  have hexp : x.exp = 17 := BigFloat.exp_of_mag (hx.mant_pos hf) (by rw [hmag]; norm_num; linarith) (by rw [hmag]; norm_num; linarith)
  obtain ⟨b, acc, hr, -, -, hb⟩ := newFromBig_finite hx hf
  have hb := (hb (by omega)).1
  rw [hexp, hmag, hneg] at hb
  have hfl1 : 1025 ≤ ⌊m * 2 ^ ((11 : ℤ) - 17)⌋ := by rw [Int.le_floor]; norm_num; linarith
  have hfl2 : ⌊m * 2 ^ ((11 : ℤ) - 17)⌋ < 2048 := by rw [Int.floor_lt]; norm_num; linarith
  refine ⟨⟨b⟩, acc, hr, ?_⟩
  show half.decode b.toNat = _
  obtain ⟨k, hk⟩ : ∃ k : ℕ, ⌊m * 2 ^ ((11 : ℤ) - 17)⌋ = k := ⟨_, (Int.toNat_of_nonneg (by omega)).symm⟩
  rw [hk] at hb hfl1 hfl2
  have hsp : half.signPart s = (if s then 1 else 0) * 2 ^ 15 := by cases s <;> rfl
  have hbn : b.toNat = half.signPart s + (31744 + (k - 1024)) := by
    have h3 : (17 + 14 : ℤ) % 32 = 31 := by norm_num
    rw [h3] at hb; omega
  have hnan := (decode_nan_iff half b.toNat).2 (by
    rw [hbn, hsp]; show _ / 2 ^ 10 % 2 ^ 5 = 2 ^ 5 - 1 ∧ _ % 2 ^ 10 ≠ 0; omega)
  obtain ⟨s', hs'⟩ := hnan
  have hsg := decode_sign_code half s (n := 31744 + (k - 1024)) (by show _ < 2 ^ 15; omega)
  rw [← hbn, hs'] at hsg
  rw [hs']; exact congrArg _ hsg

-- at 70000
example := C09_false_nan ⟨53, .toNearestEven, .exact, .finite, false, 70000, 17⟩
  ⟨by decide, by decide, by decide, by decide, by decide, fun _ => ⟨70000, 0, by decide, by decide⟩⟩ (s := false) (m := 70000)
  (by rw [BigFloat.datum_lit 17 rfl (by decide)]; norm_num) (by norm_num) (by norm_num)

/-- 98304, with precision 53. -/
def midOverflow : BigFloat :=
  { prec := 53, mode := .toNearestEven, acc := .exact, form := .finite, neg := false, mant := 3, exp := 17 }

theorem midOverflow_wf : midOverflow.WF :=
  ⟨by decide, fun _ => by decide, fun _ => by decide, fun _ => by decide, fun _ => by decide,
    fun _ => ⟨3, 0, by decide, by decide⟩⟩

theorem midOverflow_datum : midOverflow.datum = .num false 98304 := by
  rw [BigFloat.datum_lit 2 rfl (by decide)]; norm_num [midOverflow]

theorem C09_false : ¬ C09_full := by
  intro h
  obtain ⟨f, acc, h1, h2, -⟩ := h _ midOverflow_wf _ _ midOverflow_datum
  obtain ⟨f', acc', h3, h4⟩ := C09_false_nan _ midOverflow_wf midOverflow_datum (by norm_num) (by norm_num)
  rw [h1] at h3
  simp only [Except.ok.injEq, Prod.mk.injEq] at h3
  rw [← h3.1] at h4
  exact h2 _ h4

/-- C09 is also false further out: no number with magnitude in `[2^17, 2^48)` becomes an infinity, the exponent
wraps around and the result is a finite number. -/
theorem C09_false_wrap (x : BigFloat) (hx : x.WF) {s : Bool} {m : ℚ} (hd : x.datum = .num s m) (h1 : (2 : ℚ) ^ (17 : ℤ) ≤ m)
    (h2 : m < 2 ^ (48 : ℤ)) : ∃ f acc r, newFromBig x = .ok (f, acc) ∧ half.decode f.bits.toNat = .num s r := by
  obtain ⟨hneg, -, hfin⟩ := BigFloat.datum_inj_form hx hd
  obtain ⟨hf, hmag⟩ := hfin (by intro h; rw [h] at h1; norm_num at h1)
  have hlo : 17 < x.exp := BigFloat.exp_gt_of_mag (by rw [hmag]; exact h1)
  have hhi : x.exp ≤ 48 := BigFloat.exp_lt_of_mag (hx.mant_pos hf) (by rw [hmag]; exact h2)
  obtain ⟨b, acc, hr, -, -, hb⟩ := newFromBig_finite hx hf
  have hb := (hb (by omega)).1
  have hfl := BigFloat.floor_scaled (hx.mant_pos hf) (p := 11) (by norm_num)
  rw [show (((11 : ℕ) : ℤ) - x.exp) = 11 - x.exp from rfl] at hfl
  rw [show (x.exp + 14) % 32 = x.exp - 18 by omega] at hb
  obtain ⟨k, hk⟩ : ∃ k : ℕ, ⌊x.mag * 2 ^ (11 - x.exp)⌋ = k := ⟨_, (Int.toNat_of_nonneg (by norm_num at hfl; omega)).symm⟩
  rw [hk] at hb hfl
  norm_num at hfl
  obtain ⟨e, he⟩ : ∃ e : ℕ, x.exp - 18 = e := ⟨_, (Int.toNat_of_nonneg (by omega)).symm⟩
  rw [he] at hb
  have hk1 : 1024 ≤ k := by exact_mod_cast hfl.1
  have hk2 : k < 2048 := by exact_mod_cast hfl.2
  have hbn : b.toNat = half.signPart s + (e * 1024 + (k - 1024)) := by rw [hneg] at hb; omega
  refine ⟨⟨b⟩, acc, half.magc (e * 1024 + (k - 1024)), hr, ?_⟩
  show half.decode b.toNat = _
  rw [hbn, half.decode_code s (by rw [half_facts.2.2.1]; omega)]

example : (2 : ℚ) ^ (17 : ℤ) ≤ 131072 ∧ (131072 : ℚ) < 2 ^ (48 : ℤ) ∧
    ({ midOverflow with mant := 1, exp := 18 } : BigFloat).datum = .num false 131072 :=
  ⟨by norm_num, by norm_num, by rw [BigFloat.datum_lit 1 rfl (by decide)]; norm_num [midOverflow]⟩

/-- C09, the part that holds for `NewFromBig`: below 2^16 the result is a finite number.
Missing, because false: the infinity from 65520 on. -/
theorem C09_partial (x : BigFloat) (hx : x.WF) {s : Bool} {m : ℚ} (hd : x.datum = .num s m) (h2 : m < 2 ^ (16 : ℤ)) :
    ∃ f acc r, newFromBig x = .ok (f, acc) ∧ half.decode f.bits.toNat = .num s r := by
  obtain ⟨f1, f2, f3, f4, f5⟩ := half_facts
  by_cases hm : m = 0
  · obtain ⟨hneg, hz, -⟩ := BigFloat.datum_inj_form hx hd
    refine ⟨_, _, 0, newFromBig_zero (hz hm), ?_⟩
    rw [hneg]; cases s <;> simp [Format.decode, half, Zero, NegZero]
  obtain ⟨hneg, -, hfin⟩ := BigFloat.datum_inj_form hx hd
  obtain ⟨hf, hmag⟩ := hfin hm
  have hhi : x.exp ≤ 16 := BigFloat.exp_lt_of_mag (hx.mant_pos hf) (by rw [hmag]; exact h2)
  by_cases hlo : -24 < x.exp
  · obtain ⟨b, acc, n, hr, hb, hn1, -⟩ := newFromBig_range hx hf hlo hhi
    refine ⟨⟨b⟩, acc, half.magc n, hr, ?_⟩
    show half.decode b.toNat = _
    rw [hb, half.decode_code _ hn1, hneg]
  · obtain ⟨b, acc, hr, -, hb, -⟩ := newFromBig_finite hx hf
    have hb := (hb (by omega)).1
    have h3 := Int.emod_nonneg ⌊x.mag * 2 ^ (20 - x.exp)⌋ (by norm_num : (2048 : ℤ) ≠ 0)
    have h4 := Int.emod_lt_of_pos ⌊x.mag * 2 ^ (20 - x.exp)⌋ (by norm_num : (0 : ℤ) < 2048)
    obtain ⟨k, hk⟩ : ∃ k : ℕ, ⌊x.mag * 2 ^ (20 - x.exp)⌋ % 2048 = k := ⟨_, (Int.toNat_of_nonneg h3).symm⟩
    rw [hk] at hb h4
    have hbn : b.toNat = half.signPart s + k := by rw [hneg] at hb; omega
    refine ⟨⟨b⟩, acc, half.magc k, hr, ?_⟩
    show half.decode b.toNat = _
    rw [hbn, half.decode_code s (by rw [f3]; omega)]

example := C09_partial Sample.y Sample.y_wf Sample.y_datum (by norm_num)

/-- C09, the part that holds for `NewFromFloat64`: from 65520 up to 2^16 the result is the infinity with the sign
of `x`, and from 2^-14 up to 65520 it is a finite number. -/
theorem C09_float64_partial (x : F64) {s : Bool} {m : ℚ} (hd : double.decode x.toNat = .num s m)
    (h1 : (2 : ℚ) ^ (-14 : ℤ) ≤ m) (h2 : m < 2 ^ (16 : ℤ)) :
    ∃ f acc, newFromFloat64 x = .ok (f, acc) ∧
      (65520 ≤ m → half.decode f.bits.toNat = .inf s) ∧ (m < 65520 → ∃ r, half.decode f.bits.toNat = .num s r) := by
  obtain ⟨f, acc, hr, hn⟩ := C06_partial x (Or.inl ⟨s, m, hd, Or.inl ⟨h1, h2⟩⟩)
  rw [hd] at hn
  simp only [Format.RoundsTo] at hn
  have ho : half.overflowAt = 65520 := by norm_num [Format.overflowAt, half, Format.bias]
  rw [ho] at hn
  refine ⟨f, acc, hr, fun h => ?_, fun h => ?_⟩
  · rwa [if_pos h] at hn
  · rw [if_neg (not_le.2 h)] at hn
    obtain ⟨r, h3, -⟩ := hn
    exact ⟨r, h3⟩

-- 65530 = 0x40EFFF4000000000 lies in the region that overflows
example : double.decode (0x40EFFF4000000000 : F64).toNat = .num false 65530 := by
  simp [Format.decode, double, Format.bias]; norm_num

/-! ### C10 -/

/-- C10, full statement for `NewFromBig` (false, see below). -/
def C10_full : Prop := ∀ x : BigFloat, x.WF → ∀ s m, x.datum = .num s m → 0 < m → m < 2 ^ (-24 : ℤ) →
  ∃ f acc, newFromBig x = .ok (f, acc) ∧
    (half.decode f.bits.toNat = .num s 0 ∨ half.decode f.bits.toNat = .num s (2 ^ (-24 : ℤ)))

/-- `2^-25 * (1 + 2^-10)`, with precision 11. -/
def tiny : BigFloat :=
  { prec := 11, mode := .toNearestEven, acc := .exact, form := .finite, neg := false, mant := 1025, exp := -24 }

theorem tiny_wf : tiny.WF :=
  ⟨by decide, fun _ => by decide, fun _ => by decide, fun _ => by decide, fun _ => by decide,
    fun _ => ⟨1025, 0, by decide, by decide⟩⟩

theorem tiny_datum : tiny.datum = .num false ((2 : ℚ) ^ (-25 : ℤ) * (1 + 1 / 1024)) := by
  rw [BigFloat.datum_lit 11 rfl (by decide)]; norm_num [tiny]

/-- C10 is false: `2^-25 * (1 + 2^-10)` becomes `2^-15`, about a thousand times as large. -/
theorem C10_false : ¬ C10_full := by
  intro h
  obtain ⟨f, acc, h1, h2⟩ := h _ tiny_wf _ _ tiny_datum (by positivity) (by norm_num)
  have he : newFromBig tiny = .ok (⟨0x0200⟩, .below) := by decide +kernel
  rw [he] at h1
  simp only [Except.ok.injEq, Prod.mk.injEq] at h1
  rw [← h1.1] at h2
  have hd : half.decode (0x0200 : BitVec 16).toNat = .num false ((2 : ℚ) ^ (-15 : ℤ)) := by
    simp [Format.decode, half, Format.bias]; norm_num
  simp only at h2
  rw [hd] at h2
  rcases h2 with h2 | h2 <;> (simp only [Datum.num.injEq, true_and] at h2; norm_num at h2)

/-- C10, the part that holds: a number below 2^-24 becomes a number of the same sign below 2^-13, reported Below; and
a zero when its mantissa has at most 9 bits. Missing, because false: a zero or the smallest subnormal otherwise. -/
theorem C10_partial (x : BigFloat) (hx : x.WF) {s : Bool} {m : ℚ} (hd : x.datum = .num s m) (h1 : 0 < m)
    (h2 : m < 2 ^ (-24 : ℤ)) :
    ∃ f r, newFromBig x = .ok (f, .below) ∧ half.decode f.bits.toNat = .num s r ∧ r < 2 ^ (-13 : ℤ) ∧
      ((∃ (k : ℕ) (j : ℤ), m = k * (2 : ℚ) ^ j ∧ k < 2 ^ 9) → r = 0) := by
  obtain ⟨f1, f2, f3, f4, f5⟩ := half_facts
  obtain ⟨hneg, -, hfin⟩ := BigFloat.datum_inj_form hx hd
  obtain ⟨hf, hmag⟩ := hfin h1.ne'
  have hmp := hx.mant_pos hf
  have hhi : x.exp ≤ -24 := BigFloat.exp_lt_of_mag hmp (by rw [hmag]; exact h2)
  obtain ⟨b, acc, hr, -, hb, -⟩ := newFromBig_finite hx hf
  obtain ⟨hb, hacc⟩ := hb (by omega)
  have h3 := Int.emod_nonneg ⌊x.mag * 2 ^ (20 - x.exp)⌋ (by norm_num : (2048 : ℤ) ≠ 0)
  have h4 := Int.emod_lt_of_pos ⌊x.mag * 2 ^ (20 - x.exp)⌋ (by norm_num : (0 : ℤ) < 2048)
  obtain ⟨n, hn⟩ : ∃ n : ℕ, ⌊x.mag * 2 ^ (20 - x.exp)⌋ % 2048 = n := ⟨_, (Int.toNat_of_nonneg h3).symm⟩
  rw [hn] at hb h4
  have hbn : b.toNat = half.signPart s + n := by rw [hneg] at hb; omega
  have hmn : half.magc n = n * 2 ^ (-24 : ℤ) := by
    have := half.magc_eq (k := 0) (N := n) (by rw [f4]; omega) (Or.inl rfl)
    rw [Nat.zero_mul, Nat.zero_add, f1] at this
    simpa using this
  refine ⟨⟨b⟩, half.magc n, by rw [hr, hacc], ?_, ?_, ?_⟩
  · show half.decode b.toNat = _
    rw [hbn, half.decode_code s (by rw [f3]; omega)]
  · rw [hmn]
    have : (n : ℚ) < 2048 := by exact_mod_cast h4
    norm_num; linarith
  · rintro ⟨k, j, hk, hk9⟩
    -- the quantum of a 9-bit number
    have hk0 : (k : ℚ) < 2 ^ (9 : ℤ) := by exact_mod_cast hk9
    have hj : x.exp ≤ 9 + j := BigFloat.exp_lt_of_mag hmp (by
      rw [hmag, hk, zpow_add₀ (by norm_num)]; exact mul_lt_mul_of_pos_right hk0 (by positivity))
    obtain ⟨d, hd'⟩ : ∃ d : ℕ, j + (20 - x.exp) = 11 + d := ⟨(j + (20 - x.exp) - 11).toNat, by omega⟩
    have hfl : ⌊x.mag * 2 ^ (20 - x.exp)⌋ = ((k * 2 ^ d : ℕ) : ℤ) * 2048 := by
      rw [hmag, hk, mul_assoc, ← zpow_add₀ (by norm_num), hd', zpow_add₀ (by norm_num), zpow_natCast]
      rw [show (k : ℚ) * (2 ^ (11 : ℤ) * 2 ^ d) = ((((k * 2 ^ d : ℕ) : ℤ) * 2048 : ℤ) : ℚ) by push_cast; ring]
      exact Int.floor_intCast _
    rw [hfl, Int.mul_emod_left] at hn
    have : n = 0 := by omega
    rw [this]; exact (magc_eq_zero half).2 rfl

example : ({ tiny with mant := 1 } : BigFloat).datum = .num false ((1 : ℕ) * (2 : ℚ) ^ (-25 : ℤ)) := by
  rw [BigFloat.datum_lit 1 rfl (by decide)]; norm_num [tiny]

/-! ### C11 (binary16) -/

/-- C11 for `binary16.NewFromBig`: it never panics, and the sign is kept for every number, infinity or zero. -/
theorem C11_binary16_big (x : BigFloat) (hx : x.WF) : ∃ f acc, newFromBig x = .ok (f, acc) ∧ f.signbit = x.signbit := by
  cases hf : x.form with
  | zero => refine ⟨_, _, newFromBig_zero hf, ?_⟩; unfold BigFloat.signbit; cases x.neg <;> decide
  | inf => refine ⟨_, _, newFromBig_inf hf, ?_⟩; unfold BigFloat.signbit; cases x.neg <;> decide
  | finite =>
    obtain ⟨b, acc, hr, h1, h2, h3⟩ := newFromBig_finite hx hf
    refine ⟨⟨b⟩, acc, hr, ?_⟩
    suffices h : ∃ n, n < 2 ^ 15 ∧ b.toNat = half.signPart x.neg + n by
      obtain ⟨n, hn, hb⟩ := h
      rw [signbit_eq]
      show decide (b.toNat / 2 ^ 15 % 2 = 1) = x.neg
      rw [hb]; exact bit_of_code half x.neg hn
    have e3 := Int.emod_nonneg ⌊x.mag * 2 ^ (20 - x.exp)⌋ (by norm_num : (2048 : ℤ) ≠ 0)
    have e4 := Int.emod_lt_of_pos ⌊x.mag * 2 ^ (20 - x.exp)⌋ (by norm_num : (0 : ℤ) < 2048)
    have hfl := BigFloat.floor_scaled (hx.mant_pos hf) (p := 11) (by norm_num)
    rw [show (((11 : ℕ) : ℤ) - x.exp) = 11 - x.exp from rfl] at hfl
    norm_num at hfl
    have hm := BigFloat.mag_pos (hx.mant_pos hf)
    rcases lt_trichotomy (x.exp + 14) 0 with h | h | h
    · by_cases h' : x.exp + 14 ≤ -10
      · have := (h2 h').1
        exact ⟨(⌊x.mag * 2 ^ (20 - x.exp)⌋ % 2048).toNat, by omega, by omega⟩
      · have := (h1 (by omega) (by omega)).1
        have g1 : 0 ≤ ⌊x.mag * 2 ^ (24 : ℤ)⌋ := Int.floor_nonneg.2 (by positivity)
        have g2 : ⌊x.mag * 2 ^ (24 : ℤ)⌋ < 2 ^ 15 := by
          rw [Int.floor_lt]
          have a1 := BigFloat.mag_lt x
          have a2 : (2 : ℚ) ^ x.exp ≤ 2 ^ (-14 : ℤ) := zpow_le_zpow_right₀ (by norm_num) (by omega)
          norm_num at a2 ⊢; linarith
        exact ⟨⌊x.mag * 2 ^ (24 : ℤ)⌋.toNat, by omega, by omega⟩
    · have := (h1 (by omega) (by omega)).1
      have g1 : 0 ≤ ⌊x.mag * 2 ^ (24 : ℤ)⌋ := Int.floor_nonneg.2 (by positivity)
      have g2 : ⌊x.mag * 2 ^ (24 : ℤ)⌋ < 2 ^ 15 := by
        rw [Int.floor_lt]
        have a1 := BigFloat.mag_lt x
        have a2 : (2 : ℚ) ^ x.exp ≤ 2 ^ (-14 : ℤ) := zpow_le_zpow_right₀ (by norm_num) (by omega)
        norm_num at a2 ⊢; linarith
      exact ⟨⌊x.mag * 2 ^ (24 : ℤ)⌋.toNat, by omega, by omega⟩
    · have := (h3 (by omega)).1
      have g1 := Int.emod_nonneg (x.exp + 14) (by norm_num : (32 : ℤ) ≠ 0)
      have g2 := Int.emod_lt_of_pos (x.exp + 14) (by norm_num : (0 : ℤ) < 32)
      exact ⟨((x.exp + 14) % 32 * 1024 + (⌊x.mag * 2 ^ (11 - x.exp)⌋ - 1024)).toNat, by omega, by omega⟩

example := C11_binary16_big Sample.z Sample.z_wf

/-- C11 for `binary16.NewFromFloat64`: the sign is kept for every double, NaNs included. -/
theorem C11_binary16_float64 (x : F64) : ∃ f acc, newFromFloat64 x = .ok (f, acc) ∧ f.signbit = F64.signbit x := by
  rw [signbit64_eq]
  cases hd : double.decode x.toNat with
  | nan s =>
    refine ⟨_, _, newFromFloat64_nan ((isNaN64_iff x).2 ⟨s, hd⟩), ?_⟩
    rw [hd]; cases s <;> decide
  | inf s => refine ⟨_, _, newFromFloat64_inf hd, ?_⟩; cases s <;> decide
  | num s m =>
    by_cases hm : m = 0
    · rw [hm] at hd
      refine ⟨_, _, newFromFloat64_zero hd, ?_⟩; cases s <;> rfl
    · obtain ⟨y, z, he, -, -, -, -, -, -, hzw, hzf, hzn, -, -⟩ := newFromFloat64_num hd hm
      obtain ⟨f, acc, hr, hs⟩ := C11_binary16_big z hzw
      exact ⟨f, acc, by rw [he, hr], by rw [hs]; exact hzn⟩

/-- C11 for `binary16.NewFromFloat32`. -/
theorem C11_binary16_float32 (x : F32) : ∃ f acc, newFromFloat32 x = .ok (f, acc) ∧ f.signbit = F32.signbit x := by
  obtain ⟨f, acc, hr, hs⟩ := C11_binary16_float64 (f32to64 x)
  refine ⟨f, acc, newFromFloat32_fst hr, ?_⟩
  rw [hs, signbit64_eq]
  have h32 : F32.signbit x = (single.decode x.toNat).sign := by
    rw [decode_sign]
    unfold F32.signbit
    have h1 : single.t + single.w = 31 := rfl
    rw [h1, Bool.eq_iff_iff, beq_iff_eq, decide_eq_true_eq]
    have := x.isLt
    omega
  rw [h32]
  obtain ⟨h1, h2⟩ := f32to64_decode x
  by_cases hn : ∃ s, single.decode x.toNat = .nan s
  · obtain ⟨s, hs⟩ := hn; rw [h1 s hs, hs]
  · rw [h2 hn]

-- a negative NaN keeps its sign, and so does a number that wraps around
example : newFromFloat64 0xFFF4000000000000 = .ok (NegNaN, .exact) := by decide
example : newFromFloat64 0xC100000000000000 = .ok (⟨0x8000⟩, .above) := by decide +kernel

/-! ### C12 (binary16) -/

/-- C12: the six constants denote what their names say. -/
theorem C12_binary16_constants :
    half.decode NaN.bits.toNat = .nan false ∧ half.decode NegNaN.bits.toNat = .nan true ∧
    half.decode Inf.bits.toNat = .inf false ∧ half.decode NegInf.bits.toNat = .inf true ∧
    half.decode Zero.bits.toNat = .num false 0 ∧ half.decode NegZero.bits.toNat = .num true 0 := by
  simp [Format.decode, half, NaN, NegNaN, Inf, NegInf, Zero, NegZero]

/-- C12: zeros and infinities as `big.Float`, whatever their precision, mode and accuracy. -/
theorem C12_binary16_big (x : BigFloat) (hx : x.WF) :
    (∀ s, x.datum = .num s 0 → newFromBig x = .ok (if s then NegZero else Zero, .exact)) ∧
    (∀ s, x.datum = .inf s → newFromBig x = .ok (if s then NegInf else Inf, .exact)) := by
  constructor
  · intro s h
    obtain ⟨hn, hz, -⟩ := BigFloat.datum_inj_form hx h
    rw [newFromBig_zero (hz rfl), hn]
  · intro s h
    obtain ⟨hn, hz⟩ := BigFloat.datum_inf h
    rw [newFromBig_inf hz, hn]

example := (C12_binary16_big Sample.zero Sample.zero_wf).1 true Sample.zero_datum
example := (C12_binary16_big Sample.inf Sample.inf_wf).2 true Sample.inf_datum

/-- C12: zeros, infinities and NaNs (with every payload) as float64. -/
theorem C12_binary16_float64 (x : F64) (s : Bool) :
    (double.decode x.toNat = .num s 0 → newFromFloat64 x = .ok (if s then NegZero else Zero, .exact)) ∧
    (double.decode x.toNat = .inf s → newFromFloat64 x = .ok (if s then NegInf else Inf, .exact)) ∧
    (double.decode x.toNat = .nan s → newFromFloat64 x = .ok (if s then NegNaN else NaN, .exact)) :=
  ⟨newFromFloat64_zero, newFromFloat64_inf, fun h => by
    rw [newFromFloat64_nan ((isNaN64_iff x).2 ⟨s, h⟩), h]; rfl⟩

example := (C12_binary16_float64 0xFFF8000000000001 true).2.2 Sample.nan_double

/-- C12: zeros, infinities and NaNs (with every payload) as float32. -/
theorem C12_binary16_float32 (x : F32) (s : Bool) :
    (single.decode x.toNat = .num s 0 → newFromFloat32 x = .ok (if s then NegZero else Zero, .exact)) ∧
    (single.decode x.toNat = .inf s → newFromFloat32 x = .ok (if s then NegInf else Inf, .exact)) ∧
    (single.decode x.toNat = .nan s → newFromFloat32 x = .ok (if s then NegNaN else NaN, .exact)) := by
  obtain ⟨h1, h2⟩ := f32to64_decode x
  obtain ⟨a, b, c⟩ := C12_binary16_float64 (f32to64 x) s
  exact ⟨fun h => newFromFloat32_fst (a (by rw [h2 (by rw [h]; simp), h])),
    fun h => newFromFloat32_fst (b (by rw [h2 (by rw [h]; simp), h])), fun h => newFromFloat32_fst (c (h1 s h))⟩

-- a signalling NaN with a payload
example : single.decode (0xFF812345 : F32).toNat = .nan true := by simp [Format.decode, single]

end GoFloat.Binary16
