import Verif.Proofs.Sample
import Verif.Proofs.Binary128
/-
Properties of package binary128 (C11 to C18 of properties.jsonl).

The bits of a value are `f.code = a * 2^64 + b`; values are those of `Spec.Format.decode quad`.
-/
namespace GoFloat.Binary128
open Spec

/-! ### C13 -/

/-- C13 for `Exp` on a platform with `intSize`-bit `int`: it is the exponent field. -/
def ExpIsField (intSize : ℕ) : Prop := ∀ a b, (newFromBits a b).expW intSize = (a.toNat / 2 ^ 48 % 2 ^ 15 : ℕ)

/-- C13, full statement: the accessors are the fields, on 32-bit and on 64-bit platforms (false, see below). -/
def C13_full : Prop := ExpIsField 32 ∧ ExpIsField 64

/-- C13 is false on 32-bit platforms: there `Exp` is 0 for every value, because the field is shifted only after
the conversion to `int`. -/
theorem C13_int32 (f : Float) : f.expW 32 = 0 := by
  unfold Float.expW
  have : (f.a &&& 0x7FFF000000000000).setWidth 32 = 0#32 := by
    rw [← BitVec.toNat_inj, BitVec.toNat_setWidth, BitVec.toNat_and]
    have h := Nat.and_assoc f.a.toNat 0x7FFF000000000000 (2 ^ 32 - 1)
    rw [Nat.and_two_pow_sub_one_eq_mod, show (0x7FFF000000000000 : ℕ) &&& (2 ^ 32 - 1) = 0 by decide +kernel, Nat.and_zero] at h
    exact h
  rw [this]; decide

theorem C13_false : ¬ C13_full := by
  intro h
  have := h.1 0x3FFF000000000000 0
  rw [C13_int32] at this
  revert this; decide +kernel

/-- On a 32-bit platform `Big` of 1 is 0. -/
theorem C13_int32_big : ∃ x, (⟨0x3FFF000000000000, 0⟩ : Float).bigWith ((⟨0x3FFF000000000000, 0⟩ : Float).expW 32) = .ok (x, false) ∧
    x.datum = .num false 0 := by
  rw [C13_int32]
  exact ⟨{ BigFloat.new with prec := 113 }, by decide +kernel, rfl⟩

/-- C13, the part that holds: with 64-bit `int` the accessors are the fields, and lose nothing. Missing, because false:
`Exp` with 32-bit `int`. -/
theorem C13_partial (a b : BitVec 64) :
    (newFromBits a b).bitsOf = (a, b) ∧
    ((newFromBits a b).signbit = true ↔ 2 ^ 63 ≤ a.toNat) ∧
    (newFromBits a b).exp = (a.toNat / 2 ^ 48 % 2 ^ 15 : ℕ) ∧
    (newFromBits a b).frac.1.toNat = a.toNat % 2 ^ 48 ∧ (newFromBits a b).frac.2 = b ∧
    a.toNat = (if (newFromBits a b).signbit then 2 ^ 63 else 0) + (newFromBits a b).exp.toNat * 2 ^ 48
      + (newFromBits a b).frac.1.toNat := by
  have ha := a.isLt
  have hb := b.isLt
  have hc : (newFromBits a b).code = a.toNat * 2 ^ 64 + b.toNat := rfl
  have hs : (newFromBits a b).signbit = true ↔ 2 ^ 63 ≤ a.toNat := by
    rw [signbit_eq, decide_eq_true_eq, hc]; omega
  have he : (newFromBits a b).exp = (a.toNat / 2 ^ 48 % 2 ^ 15 : ℕ) := by
    rw [exp_eq, hc]; congr 1; omega
  refine ⟨rfl, hs, he, frac1_eq _, rfl, ?_⟩
  rw [he, frac1_eq, Int.toNat_natCast]
  show a.toNat = _ + a.toNat / 2 ^ 48 % 2 ^ 15 * 2 ^ 48 + a.toNat % 2 ^ 48
  split <;> rename_i h <;> rw [hs] at h <;> omega

example : (newFromBits 0xC000800000000000 7).signbit = true ∧ (newFromBits 0xC000800000000000 7).exp = 16384 ∧
    (newFromBits 0xC000800000000000 7).frac = (0x800000000000, 7) := by decide +kernel

/-! ### C14 -/

/-- C14: `Big` never panics and returns the IEEE 754 value of the bits, exactly, with precision 113. -/
theorem C14_binary128_big (f : Float) :
    ∃ x nan, f.big = .ok (x, nan) ∧ x.prec = 113 ∧ x.mode = .toNearestEven ∧ x.acc = .exact ∧ x.WF ∧
      Decoded (quad.decode f.code) x nan := big_spec f

-- -3/2 and a NaN, as the specification reads them
example : quad.decode (⟨0xBFFF800000000000, 0⟩ : Float).code = .num true (3 / 2) := by
  have h : (⟨0xBFFF800000000000, 0⟩ : Float).code = 0xBFFF8000000000000000000000000000 := by decide +kernel
  rw [h]; simp [Format.decode, quad, Format.bias]; norm_num
example : quad.decode (⟨0x7FFF000000000000, 1⟩ : Float).code = .nan false := by
  have h : (⟨0x7FFF000000000000, 1⟩ : Float).code = 0x7FFF0000000000000000000000000001 := by decide +kernel
  rw [h]; simp [Format.decode, quad]

/-! ### C15 -/

/-- C15: every quadruple that is not a NaN survives `NewFromBig(f.Big())`, bit for bit and reported exact. -/
theorem C15_binary128_big_roundtrip (f : Float) (h : ∀ s, quad.decode f.code ≠ .nan s) :
    ∃ x, f.big = .ok (x, false) ∧ newFromBig x = .ok (f, .exact) := by
  obtain ⟨x, nan, hb, -, -, -, hwf, hd⟩ := big_spec f
  cases hdec : quad.decode f.code with
  | nan s => exact absurd hdec (h s)
  | inf s => rw [hdec] at hd; exact ⟨x, by rw [hb, hd.1], newFromBig_of_decode hwf (by rw [hd.2, hdec])⟩
  | num s m => rw [hdec] at hd; exact ⟨x, by rw [hb, hd.1], newFromBig_of_decode hwf (by rw [hd.2, hdec])⟩

/-- 1 + 2^-112 -/
def onePlus : Float := ⟨0x3FFF000000000000, 1⟩

theorem onePlus_code : onePlus.code = 0x3FFF0000000000000000000000000001 := by decide +kernel

theorem onePlus_decode : quad.decode onePlus.code = .num false (1 + 1 / 2 ^ 112) := by
  rw [onePlus_code]; simp [Format.decode, quad, Format.bias]

example : ∀ s, quad.decode onePlus.code ≠ .nan s := by rw [onePlus_decode]; simp

/-! ### C16 -/

/-- C16: every double is embedded exactly, reported exact, and comes back bit for bit. -/
theorem C16_binary128_float64 (x : F64) (h : ∀ s, double.decode x.toNat ≠ .nan s) :
    ∃ f, newFromFloat64 x = .ok (f, .exact) ∧ quad.decode f.code = double.decode x.toNat ∧ f.float64 = .ok (x, .exact) := by
  obtain ⟨f, h1, h2⟩ := newFromFloat64_spec h
  obtain ⟨y, nan, hwf, hdec, hr⟩ := float64_spec f
  rw [h2] at hdec
  obtain ⟨h3, h4⟩ := toF64_exact (F := double) (by decide) (by decide) (by decide) (by decide) hwf hdec h
  exact ⟨f, h1, h2, by rw [hr, ← h4, ← decode_inj64 h3 (by rw [h3]; exact h)]⟩

example := C16_binary128_float64 0xBFF6000000000000 (fun s h => by rw [Sample.x_double] at h; simp at h)

/-- C16: the same for float32. -/
theorem C16_binary128_float32 (x : F32) (h : ∀ s, single.decode x.toNat ≠ .nan s) :
    ∃ f, newFromFloat32 x = .ok (f, .exact) ∧ quad.decode f.code = single.decode x.toNat ∧ f.float32 = .ok (x, .exact) :=
  newFromFloat32_spec h

-- the smallest subnormals
example : newFromFloat64 0x8000000000000001 = .ok (⟨0xBBCD000000000000, 0⟩, .exact) := by decide +kernel
example : newFromFloat32 0x00000001 = .ok (⟨0x3F6A000000000000, 0⟩, .exact) := by decide +kernel

/-! ### C17 -/

/-- C17: `Float64` is the correctly rounded double and the accuracy is true; a NaN keeps its sign. -/
theorem C17_binary128_float64 (f : Float) : ∃ r acc, f.float64 = .ok (r, acc) ∧ Converts64 (quad.decode f.code) r acc := by
  obtain ⟨x, nan, hwf, hdec, hr⟩ := float64_spec f
  exact ⟨_, _, hr, toF64_converts hwf hdec⟩

/-- C17: `Float32` is the correctly rounded float32 and the accuracy is true; a NaN keeps its sign. -/
theorem C17_binary128_float32 (f : Float) : ∃ r acc, f.float32 = .ok (r, acc) ∧ Converts32 (quad.decode f.code) r acc := by
  obtain ⟨x, nan, hwf, hdec, hr⟩ := float32_spec f
  exact ⟨_, _, hr, toF32_converts hwf hdec⟩

-- an inexact case
example : onePlus.float64 = .ok (0x3FF0000000000000, .below) := by decide +kernel

/-! ### C18 -/

/-- The claim of C18 for one input. -/
def NearestBig (x : BigFloat) : Prop := ∃ f acc, newFromBig x = .ok (f, acc) ∧
  (∀ s m, x.datum = .num s m → quad.RoundsTo s m f.code) ∧ AccuracyTrue acc (quad.decode f.code) x.datum

/-- C18, full statement (false, see below). -/
def C18_full : Prop := ∀ x : BigFloat, x.WF → NearestBig x

/-- `1 + 3 * 2^-114`, with precision 115. -/
def nearUpper : BigFloat :=
  { prec := 115, mode := .toNearestEven, acc := .exact, form := .finite, neg := false, mant := 2 ^ 114 + 3, exp := 1 }

theorem nearUpper_wf : nearUpper.WF :=
  ⟨by decide, fun _ => by decide +kernel, fun _ => by decide, fun _ => by decide, fun _ => by decide,
    fun _ => ⟨2 ^ 114 + 3, 0, by decide +kernel, by decide +kernel⟩⟩

theorem nearUpper_datum : nearUpper.datum = .num false (1 + 3 / 2 ^ 114) := by
  rw [BigFloat.datum_lit 115 rfl (by decide +kernel)]; norm_num [nearUpper]

theorem one_decode : quad.decode 0x3FFF0000000000000000000000000000 = .num false 1 := by
  simp [Format.decode, quad, Format.bias]

theorem two_le_overflowAt : 2 ≤ quad.overflowAt := by
  unfold Format.overflowAt
  rw [quad_facts.2.1, quad_facts.2.2.1]
  have h1 : (2 : ℚ) ^ (1 : ℤ) ≤ 2 ^ (16383 : ℤ) := zpow_le_zpow_right₀ (by norm_num) (by norm_num)
  generalize (2 : ℚ) ^ (16383 : ℤ) = P at h1
  norm_num at h1 ⊢
  linarith

/-- C18 is false: `1 + 3 * 2^-114` becomes 1 although `1 + 2^-112` is nearer. -/
theorem C18_false : ¬ C18_full := by
  intro h
  obtain ⟨f, acc, h, hr, -⟩ := h nearUpper nearUpper_wf
  have he : newFromBig nearUpper = .ok (⟨0x3FFF000000000000, 0⟩, .below) := by decide +kernel
  rw [he] at h
  simp only [Except.ok.injEq, Prod.mk.injEq] at h
  have hr := hr _ _ nearUpper_datum
  rw [← h.1, show (⟨0x3FFF000000000000, 0⟩ : Float).code = 0x3FFF0000000000000000000000000000 by decide +kernel] at hr
  unfold Format.RoundsTo at hr
  rw [if_neg (by have := two_le_overflowAt; rw [not_le]; refine lt_of_lt_of_le ?_ this; norm_num)] at hr
  obtain ⟨r, hr1, hr2, -⟩ := hr
  rw [one_decode] at hr1
  simp only [Datum.num.injEq, true_and] at hr1
  have := hr2 _ _ _ onePlus_decode
  rw [← hr1] at this
  norm_num [signed, abs_le] at this

/-- C18, accuracy: false for negative numbers, `-(1 + 3 * 2^-114)` becomes `-1`, which is larger, but Below is reported. -/
theorem C18_false_accuracy : ¬ ∀ x : BigFloat, x.WF → ∃ f acc, newFromBig x = .ok (f, acc) ∧
    AccuracyTrue acc (quad.decode f.code) x.datum := by
  intro h
  have hwf : ({ nearUpper with neg := true } : BigFloat).WF := nearUpper_wf.withSign true
  obtain ⟨f, acc, h, ha⟩ := h _ hwf
  have he : newFromBig { nearUpper with neg := true } = .ok (⟨0xBFFF000000000000, 0⟩, .below) := by decide +kernel
  rw [he] at h
  simp only [Except.ok.injEq, Prod.mk.injEq] at h
  rw [← h.1, ← h.2, show (⟨0xBFFF000000000000, 0⟩ : Float).code = 0xBFFF0000000000000000000000000000 by decide +kernel] at ha
  obtain ⟨a, b, h1, h2, h3⟩ := ha
  have hd : quad.decode 0xBFFF0000000000000000000000000000 = .num true 1 := by simp [Format.decode, quad, Format.bias]
  have hb : ({ nearUpper with neg := true } : BigFloat).datum = .num true (1 + 3 / 2 ^ 114) := by
    rw [BigFloat.datum_lit 115 rfl (by decide +kernel)]; norm_num [nearUpper]
  rw [hd] at h1; rw [hb] at h2
  simp only [Datum.key, Option.some.injEq] at h1 h2
  rw [← h1, ← h2] at h3
  norm_num [keyLt, signed] at h3

/-- C18 is false at overflow: every number with magnitude in `[2^16384 * (1 + 2^-112), 2^16385)` becomes a NaN,
the threshold of infinity being below 2^16384. -/
theorem C18_false_overflow (x : BigFloat) (hx : x.WF) {s : Bool} {m : ℚ} (hd : x.datum = .num s m)
    (h1 : (2 : ℚ) ^ (16384 : ℤ) * (1 + 1 / 2 ^ 112) ≤ m) (h2 : m < 2 ^ (16385 : ℤ)) :
    ∃ f acc, newFromBig x = .ok (f, acc) ∧ quad.decode f.code = .nan s := by
  have hP : (0 : ℚ) < 2 ^ (16384 : ℤ) := by positivity
  obtain ⟨hneg, -, hfin⟩ := BigFloat.datum_inj_form hx hd
  obtain ⟨hf, hmag⟩ := hfin (by
    intro h; rw [h] at h1
    have : (0 : ℚ) < 2 ^ (16384 : ℤ) * (1 + 1 / 2 ^ 112) := by positivity
    exact absurd h1 (not_le.2 this))
  have hexp : x.exp = 16385 := BigFloat.exp_of_mag (hx.mant_pos hf) (by
      rw [hmag, show (16385 : ℤ) - 1 = 16384 by norm_num]
      refine le_trans ?_ h1
      exact le_mul_of_one_le_right hP.le (by norm_num)) (by rw [hmag]; exact h2)
  obtain ⟨f, acc, hr, -, -, hb⟩ := newFromBig_finite hx hf
  have hb := (hb (by omega)).1
  rw [hexp, hmag, hneg] at hb
  have hfl2 := (BigFloat.floor_scaled (hx.mant_pos hf) (p := 113) (by norm_num)).2
  rw [hexp, hmag, show ((113 : ℕ) : ℤ) - 16385 = 113 - 16385 from rfl] at hfl2
  have hfl1 : 2 ^ 112 + 1 ≤ ⌊m * 2 ^ ((113 : ℤ) - 16385)⌋ := by
    rw [Int.le_floor]
    have h3 := mul_le_mul_of_nonneg_right h1 (show (0 : ℚ) ≤ 2 ^ ((113 : ℤ) - 16385) by positivity)
    refine le_trans (le_of_eq ?_) h3
    rw [mul_right_comm, ← zpow_add₀ (by norm_num), show (16384 : ℤ) + (113 - 16385) = (112 : ℕ) by norm_num, zpow_natCast]
    norm_num
  refine ⟨f, acc, hr, ?_⟩
  generalize ⌊m * 2 ^ ((113 : ℤ) - 16385)⌋ = M at hb hfl1 hfl2
  obtain ⟨k, rfl⟩ : ∃ k : ℕ, M = k := ⟨_, (Int.toNat_of_nonneg (by omega)).symm⟩
  have hsp : quad.signPart s = (if s then 1 else 0) * 2 ^ 127 := by cases s <;> rfl
  have hbn : f.code = quad.signPart s + (32767 * 2 ^ 112 + (k - 2 ^ 112)) := by
    have h3 : ((16385 : ℤ) + 16382) % 2 ^ 15 = 32767 := by norm_num
    rw [h3] at hb; omega
  have hnan := (decode_nan_iff quad f.code).2 (by
    rw [hbn, hsp]; show _ / 2 ^ 112 % 2 ^ 15 = 2 ^ 15 - 1 ∧ _ % 2 ^ 112 ≠ 0; split <;> omega)
  obtain ⟨s', hs'⟩ := hnan
  have hsg := decode_sign_code quad s (n := 32767 * 2 ^ 112 + (k - 2 ^ 112)) (by show _ < 2 ^ 127; omega)
  rw [← hbn, hs'] at hsg
  rw [hs']; exact congrArg _ hsg

-- 3 * 2^16383 is such a number
example : (2 : ℚ) ^ (16384 : ℤ) * (1 + 1 / 2 ^ 112) ≤ 3 * 2 ^ (16383 : ℤ) ∧ 3 * (2 : ℚ) ^ (16383 : ℤ) < 2 ^ (16385 : ℤ) := by
  have hP : (0 : ℚ) < 2 ^ (16383 : ℤ) := by positivity
  have h1 : (2 : ℚ) ^ (16384 : ℤ) = 2 ^ (16383 : ℤ) * 2 := by rw [← zpow_add_one₀ (by norm_num)]; rfl
  have h2 : (2 : ℚ) ^ (16385 : ℤ) = 2 ^ (16383 : ℤ) * 2 * 2 := by
    rw [← zpow_add_one₀ (by norm_num), ← zpow_add_one₀ (by norm_num)]; rfl
  rw [h1, h2]
  generalize (2 : ℚ) ^ (16383 : ℤ) = P at hP
  constructor
  · norm_num; linarith
  · linarith

/-- C18, the part that holds: with magnitude in `[2^-16494, 2^16384)`, `NewFromBig` rounds toward zero: the result has
the sign of `x` and the largest magnitude not exceeding that of `x`; a quadruple is kept and reported exact; and from
2^-16382 on, Exact is reported only for quadruples, and Below otherwise. Missing, because false: rounding to nearest,
overflow, underflow, the accuracy of subnormals and of negative numbers. -/
theorem C18_partial (x : BigFloat) (hx : x.WF) {s : Bool} {m : ℚ} (hd : x.datum = .num s m)
    (h1 : (2 : ℚ) ^ (-16494 : ℤ) ≤ m) (h2 : m < 2 ^ (16384 : ℤ)) :
    ∃ f acc r, newFromBig x = .ok (f, acc) ∧ quad.decode f.code = .num s r ∧ r ≤ m ∧
      (∀ c' s' r', quad.decode c' = .num s' r' → r' ≤ m → r' ≤ r) ∧
      (quad.Representable s m → r = m ∧ acc = .exact) ∧
      ((2 : ℚ) ^ (-16382 : ℤ) ≤ m → acc = if r = m then .exact else .below) := by
  obtain ⟨f1, f2, f3, f4, f5⟩ := quad_facts
  have hm0 : m ≠ 0 := by have : (0 : ℚ) < 2 ^ (-16494 : ℤ) := by positivity
                         intro h; linarith
  obtain ⟨hneg, -, hfin⟩ := BigFloat.datum_inj_form hx hd
  obtain ⟨hf, hmag⟩ := hfin hm0
  have hlo : -16494 < x.exp := BigFloat.exp_gt_of_mag (by rw [hmag]; exact h1)
  have hhi : x.exp ≤ 16384 := BigFloat.exp_lt_of_mag (hx.mant_pos hf) (by rw [hmag]; exact h2)
  obtain ⟨f, acc, n, hr, hb, hn1, hn2, hn3, ha1, ha2⟩ := newFromBig_range hx hf (by rw [f1]; exact hlo) (by rw [f2]; omega)
  rw [hmag] at hn2 hn3
  have hmax : ∀ c' s' r', quad.decode c' = .num s' r' → r' ≤ m → r' ≤ quad.magc n := by
    intro c' s' r' hc hle
    obtain ⟨n', -, hr', -, -⟩ := quad.code_of_decode hc
    rw [hr'] at hle ⊢
    have : n' < n + 1 := quad.magc_strictMono.lt_iff_lt.1 (hle.trans_lt hn3)
    exact quad.magc_strictMono.monotone (by omega)
  rw [f2] at ha1 ha2
  refine ⟨f, acc, quad.magc n, hr, ?_, hn2, hmax, ?_, ?_⟩
  · rw [hb, quad.decode_code _ hn1, hneg]
  · rintro ⟨c, hc⟩
    have heq : quad.magc n = m := le_antisymm hn2 (hmax c s m hc le_rfl)
    refine ⟨heq, ?_⟩
    by_cases h : x.exp - 1 + 16383 ≤ 0
    · exact ha1 h
    · rw [ha2 (by omega), hmag, if_pos heq]
  · intro h
    have hexp : -16382 < x.exp := BigFloat.exp_gt_of_mag (by rw [hmag]; exact h)
    rw [ha2 (by omega), hmag]

example : nearUpper.datum = .num false (1 + 3 / 2 ^ 114) ∧ (2 : ℚ) ^ (-16494 : ℤ) ≤ 1 + 3 / 2 ^ 114 ∧
    (1 + 3 / 2 ^ 114 : ℚ) < 2 ^ (16384 : ℤ) := by
  refine ⟨nearUpper_datum, ?_, ?_⟩
  · refine le_trans (zpow_le_one_of_nonpos₀ (by norm_num) (by norm_num)) (by norm_num)
  · refine lt_of_lt_of_le (b := (2 : ℚ) ^ (1 : ℤ)) (by norm_num) (zpow_le_zpow_right₀ (by norm_num) (by norm_num))

/-- C18, below the smallest subnormal: a number with at most 112 significant bits becomes the zero of its sign, reported
Below; in general the magnitude of the result is less than 2^-16382. -/
theorem C18_underflow_partial (x : BigFloat) (hx : x.WF) {s : Bool} {m : ℚ} (hd : x.datum = .num s m) (h1 : 0 < m)
    (h2 : m < 2 ^ (-16494 : ℤ)) :
    ∃ f r, newFromBig x = .ok (f, .below) ∧ quad.decode f.code = .num s r ∧ r < 2 ^ (-16382 : ℤ) ∧
      ((∃ (k : ℕ) (j : ℤ), m = k * (2 : ℚ) ^ j ∧ k < 2 ^ 112) → r = 0) := by
  obtain ⟨f1, f2, f3, f4, f5⟩ := quad_facts
  obtain ⟨hneg, -, hfin⟩ := BigFloat.datum_inj_form hx hd
  obtain ⟨hf, hmag⟩ := hfin h1.ne'
  have hmp := hx.mant_pos hf
  have hhi : x.exp ≤ -16494 := BigFloat.exp_lt_of_mag hmp (by rw [hmag]; exact h2)
  obtain ⟨f, acc, hr, -, hb, -⟩ := newFromBig_finite hx hf
  obtain ⟨hb, hacc⟩ := hb (by omega)
  have hzero : (∃ (k : ℕ) (j : ℤ), m = k * (2 : ℚ) ^ j ∧ k < 2 ^ 112) → ⌊x.mag * 2 ^ (224 - x.exp)⌋ % 2 ^ 112 = 0 := by
    rintro ⟨k, j, hk, hk9⟩
    have hk0 : (k : ℚ) < 2 ^ (112 : ℤ) := by exact_mod_cast hk9
    have hj : x.exp ≤ 112 + j := BigFloat.exp_lt_of_mag hmp (by
      rw [hmag, hk, zpow_add₀ (by norm_num)]; exact mul_lt_mul_of_pos_right hk0 (by positivity))
    obtain ⟨d, hd'⟩ : ∃ d : ℕ, j + (224 - x.exp) = ((112 + d : ℕ) : ℤ) := ⟨(j + (224 - x.exp) - 112).toNat, by omega⟩
    have hfl : ⌊x.mag * 2 ^ (224 - x.exp)⌋ = ((k * 2 ^ d : ℕ) : ℤ) * 2 ^ 112 := by
      rw [hmag, hk, mul_assoc, ← zpow_add₀ (by norm_num), hd', zpow_natCast, pow_add]
      rw [show (k : ℚ) * (2 ^ 112 * 2 ^ d) = ((((k * 2 ^ d : ℕ) : ℤ) * 2 ^ 112 : ℤ) : ℚ) by
        rw [Int.cast_mul, Int.cast_natCast, Nat.cast_mul, Nat.cast_pow, Int.cast_pow]; simp only [Nat.cast_ofNat, Int.cast_ofNat]; ring]
      exact Int.floor_intCast _
    rw [hfl, Int.mul_emod_left]
  generalize ⌊x.mag * 2 ^ (224 - x.exp)⌋ = M at hb hzero
  obtain ⟨n, hn⟩ : ∃ n : ℕ, M % 2 ^ 112 = n := ⟨_, (Int.toNat_of_nonneg (by omega)).symm⟩
  have hn112 : n < 2 ^ 112 := by omega
  rw [hn] at hb hzero
  have hbn : f.code = quad.signPart s + n := by rw [hneg] at hb; exact_mod_cast hb
  have hinf : 2 ^ 112 ≤ quad.infCode := by decide +kernel
  refine ⟨f, quad.magc n, by rw [hr, hacc], ?_, ?_, ?_⟩
  · rw [hbn, quad.decode_code s (by omega)]
  · have h3 := quad.magc_strictMono hn112
    have h4 := quad.magc_eq (k := 0) (N := 2 ^ 112) (by rw [f3]; norm_num) (Or.inl rfl)
    rw [Nat.zero_mul, Nat.zero_add, f1, Nat.cast_zero, add_zero, Nat.cast_pow, ← zpow_natCast, Nat.cast_ofNat,
      ← zpow_add₀ (by norm_num), show ((112 : ℕ) : ℤ) + -16494 = -16382 by norm_num] at h4
    rwa [h4] at h3
  · intro h
    have : n = 0 := by have := hzero h; omega
    rw [this]; exact (magc_eq_zero quad).2 rfl

example := C18_underflow_partial Sample.z Sample.z_wf Sample.z_datum Sample.z_pos (Sample.z_lt _ (by norm_num))

/-- `2^-16495 * (1 + 2^-112)`, with precision 113. -/
def tiny : BigFloat :=
  { prec := 113, mode := .toNearestEven, acc := .exact, form := .finite, neg := false, mant := 2 ^ 112 + 1, exp := -16494 }

theorem tiny_wf : tiny.WF :=
  ⟨by decide, fun _ => by decide +kernel, fun _ => by decide +kernel, fun _ => by decide, fun _ => by decide,
    fun _ => ⟨2 ^ 112 + 1, 0, by decide +kernel, by decide +kernel⟩⟩

theorem tiny_datum : tiny.datum = .num false ((2 : ℚ) ^ (-16494 : ℤ) * ((2 ^ 112 + 1) / 2 ^ 113)) := by
  rw [BigFloat.datum_lit 113 rfl (by decide +kernel)]
  show Datum.num false (((2 ^ 112 + 1 : ℕ) : ℚ) / 2 ^ 113 * 2 ^ (-16494 : ℤ)) = _
  generalize (2 : ℚ) ^ (-16494 : ℤ) = P
  congr 1
  rw [Nat.cast_add, Nat.cast_pow, mul_comm]; simp

/-- C18 is false below the smallest subnormal: `2^-16495 * (1 + 2^-112)` becomes 2^111 times the smallest subnormal. -/
theorem C18_false_underflow : newFromBig tiny = .ok (⟨0x0000800000000000, 0⟩, .below) ∧ tiny.WF ∧
    tiny.datum = .num false ((2 : ℚ) ^ (-16494 : ℤ) * ((2 ^ 112 + 1) / 2 ^ 113)) ∧
    quad.decode (⟨0x0000800000000000, 0⟩ : Float).code = .num false ((2 : ℚ) ^ (-16494 : ℤ) * 2 ^ 111) := by
  refine ⟨by decide +kernel, tiny_wf, tiny_datum, ?_⟩
  have hc : (⟨0x0000800000000000, 0⟩ : Float).code = quad.signPart false + 2 ^ 111 := by decide +kernel
  rw [hc, quad.decode_code false (by decide +kernel)]
  have h4 := quad.magc_eq (k := 0) (N := 2 ^ 111) (by decide +kernel) (Or.inl rfl)
  rw [Nat.zero_mul, Nat.zero_add, quad_facts.1, Nat.cast_zero, add_zero, Nat.cast_pow] at h4
  rw [h4, mul_comm]; simp only [Nat.cast_ofNat]

/-! ### C11 (binary128) -/

/-- C11 for `binary128.NewFromBig`: it never panics, and the sign is kept for every number, infinity or zero. -/
theorem C11_binary128_big (x : BigFloat) (hx : x.WF) : ∃ f acc, newFromBig x = .ok (f, acc) ∧ f.signbit = x.signbit := by
  obtain ⟨f, acc, n, h1, h2, h3⟩ := newFromBig_sign hx
  exact ⟨f, acc, h1, signbit_of_code h2 h3⟩

example := C11_binary128_big Sample.z Sample.z_wf

/-- C11 for `binary128.NewFromFloat64`: the sign is kept for every double, NaNs included. -/
theorem C11_binary128_float64 (x : F64) : ∃ f acc, newFromFloat64 x = .ok (f, acc) ∧ f.signbit = F64.signbit x := by
  rw [signbit64_eq]
  by_cases hn : ∃ s, double.decode x.toNat = .nan s
  · obtain ⟨s, hs⟩ := hn
    refine ⟨_, _, newFromFloat64_nan ((isNaN64_iff x).2 ⟨s, hs⟩), ?_⟩
    rw [hs]; cases s <;> decide +kernel
  · push Not at hn
    obtain ⟨f, h1, h2⟩ := newFromFloat64_spec hn
    exact ⟨f, _, h1, by rw [signbit_decode, h2]⟩

theorem newFromFloat32_nan {x : F32} {s : Bool} (h : single.decode x.toNat = .nan s) :
    newFromFloat32 x = .ok (if s then NegNaN else NaN, .exact) := by
  have h1 := (f32to64_decode x).1 s h
  have h2 := newFromFloat64_nan ((isNaN64_iff _).2 ⟨s, h1⟩)
  unfold newFromFloat32
  rw [h2, h1]
  cases s <;> decide +kernel

/-- C11 for `binary128.NewFromFloat32`. -/
theorem C11_binary128_float32 (x : F32) : ∃ f acc, newFromFloat32 x = .ok (f, acc) ∧ f.signbit = F32.signbit x := by
  rw [signbit32_eq]
  by_cases hn : ∃ s, single.decode x.toNat = .nan s
  · obtain ⟨s, hs⟩ := hn
    refine ⟨_, _, newFromFloat32_nan hs, ?_⟩
    rw [hs]; cases s <;> decide +kernel
  · push Not at hn
    obtain ⟨f, h1, h2, -⟩ := newFromFloat32_spec hn
    exact ⟨f, _, h1, by rw [signbit_decode, h2]⟩

example : newFromFloat64 0xFFF4000000000000 = .ok (NegNaN, .exact) := by decide +kernel

/-! ### C12 (binary128) -/

/-- C12: the six constants denote what their names say. -/
theorem C12_binary128_constants :
    quad.decode NaN.code = .nan false ∧ quad.decode NegNaN.code = .nan true ∧
    quad.decode Inf.code = .inf false ∧ quad.decode NegInf.code = .inf true ∧
    quad.decode Zero.code = .num false 0 ∧ quad.decode NegZero.code = .num true 0 := by
  refine ⟨?_, ?_, ?_, ?_, ?_, ?_⟩
  · rw [show NaN.code = 0x7FFF8000000000000000000000000000 by decide +kernel]; simp [Format.decode, quad]
  · rw [show NegNaN.code = 0xFFFF8000000000000000000000000000 by decide +kernel]; simp [Format.decode, quad]
  · have := code_inf false; simp only [Bool.false_eq_true, if_false] at this; rw [this, quad.decode_inf]
  · have := code_inf true; simp only [if_true] at this; rw [this, quad.decode_inf]
  · have := code_zero false; simp only [Bool.false_eq_true, if_false] at this
    rw [this, (roundsTo_zero quad (by decide) false).1]
  · have := code_zero true; simp only [if_true] at this
    rw [this, (roundsTo_zero quad (by decide) true).1]

/-- C12: zeros and infinities as `big.Float`, whatever their precision, mode and accuracy. -/
theorem C12_binary128_big (x : BigFloat) (hx : x.WF) :
    (∀ s, x.datum = .num s 0 → newFromBig x = .ok (if s then NegZero else Zero, .exact)) ∧
    (∀ s, x.datum = .inf s → newFromBig x = .ok (if s then NegInf else Inf, .exact)) := by
  constructor
  · intro s h
    obtain ⟨hn, hz, -⟩ := BigFloat.datum_inj_form hx h
    rw [newFromBig_zero (hz rfl), hn]
  · intro s h
    obtain ⟨hn, hz⟩ := BigFloat.datum_inf h
    rw [newFromBig_inf hz, hn]

example := (C12_binary128_big Sample.zero Sample.zero_wf).1 true Sample.zero_datum
example := (C12_binary128_big Sample.inf Sample.inf_wf).2 true Sample.inf_datum

theorem decode_inj {f g : Float} (h : quad.decode f.code = quad.decode g.code) (hn : ∀ s, quad.decode f.code ≠ .nan s) : f = g := by
  obtain ⟨x, h1, h2⟩ := C15_binary128_big_roundtrip f hn
  obtain ⟨x', nan, hb, -, -, -, hwf, hd⟩ := big_spec f
  rw [h1] at hb
  simp only [Except.ok.injEq, Prod.mk.injEq] at hb
  rw [← hb.1] at hwf hd
  have hxd : x.datum = quad.decode f.code := by
    cases hdec : quad.decode f.code with
    | nan s => exact absurd hdec (hn s)
    | inf s => rw [hdec] at hd; exact hd.2
    | num s m => rw [hdec] at hd; exact hd.2
  have h3 := newFromBig_of_decode hwf (f := g) (by rw [hxd, h])
  rw [h2] at h3
  simpa using h3

/-- C12: zeros, infinities and NaNs (with every payload) as float64. -/
theorem C12_binary128_float64 (x : F64) (s : Bool) :
    (double.decode x.toNat = .num s 0 → newFromFloat64 x = .ok (if s then NegZero else Zero, .exact)) ∧
    (double.decode x.toNat = .inf s → newFromFloat64 x = .ok (if s then NegInf else Inf, .exact)) ∧
    (double.decode x.toNat = .nan s → newFromFloat64 x = .ok (if s then NegNaN else NaN, .exact)) := by
  refine ⟨fun h => ?_, fun h => ?_, fun h => by
    rw [newFromFloat64_nan ((isNaN64_iff x).2 ⟨s, h⟩), h]; rfl⟩
  · obtain ⟨f, h1, h2⟩ := newFromFloat64_spec (x := x) (by rw [h]; simp)
    rw [h1, decode_inj (f := f) (g := if s then NegZero else Zero) (by
      rw [h2, h, code_zero, (roundsTo_zero quad (by decide) s).1]) (by rw [h2, h]; simp)]
  · obtain ⟨f, h1, h2⟩ := newFromFloat64_spec (x := x) (by rw [h]; simp)
    rw [h1, decode_inj (f := f) (g := if s then NegInf else Inf) (by
      rw [h2, h, code_inf, quad.decode_inf]) (by rw [h2, h]; simp)]

example := (C12_binary128_float64 0xFFF8000000000001 true).2.2 Sample.nan_double

/-- C12: zeros, infinities and NaNs (with every payload) as float32. -/
theorem C12_binary128_float32 (x : F32) (s : Bool) :
    (single.decode x.toNat = .num s 0 → newFromFloat32 x = .ok (if s then NegZero else Zero, .exact)) ∧
    (single.decode x.toNat = .inf s → newFromFloat32 x = .ok (if s then NegInf else Inf, .exact)) ∧
    (single.decode x.toNat = .nan s → newFromFloat32 x = .ok (if s then NegNaN else NaN, .exact)) := by
  refine ⟨fun h => ?_, fun h => ?_, newFromFloat32_nan⟩
  · obtain ⟨f, h1, h2, -⟩ := newFromFloat32_spec (x := x) (by rw [h]; simp)
    rw [h1, decode_inj (f := f) (g := if s then NegZero else Zero) (by
      rw [h2, h, code_zero, (roundsTo_zero quad (by decide) s).1]) (by rw [h2, h]; simp)]
  · obtain ⟨f, h1, h2, -⟩ := newFromFloat32_spec (x := x) (by rw [h]; simp)
    rw [h1, decode_inj (f := f) (g := if s then NegInf else Inf) (by
      rw [h2, h, code_inf, quad.decode_inf]) (by rw [h2, h]; simp)]

example := (C12_binary128_float32 0xFF800000 true).2.1 Sample.inf_single

end GoFloat.Binary128
