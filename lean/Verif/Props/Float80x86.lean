import Verif.Proofs.Sample
import Verif.Proofs.Float80x86
/-
Properties of package float80x86 (C11, C12 and C19 to C24 of properties.jsonl).

`f.val = decode80 se m` is what the bits denote, `f.Canonical = Canonical80 se m` says that the integer bit is set
exactly when the exponent is not zero.
-/
namespace GoFloat.Float80x86
open Spec

/-! ### C19 -/

/-- C19: the accessors are the fields, and lose nothing. -/
theorem C19_float80x86_fields (se : BitVec 16) (m : BitVec 64) :
    (newFromBits se m).bitsOf = (se, m) ∧
    ((newFromBits se m).signbit = true ↔ 2 ^ 15 ≤ se.toNat) ∧
    (newFromBits se m).exp = (se.toNat % 2 ^ 15 : ℕ) ∧
    (newFromBits se m).lead = m.toNat / 2 ^ 63 ∧
    (newFromBits se m).frac.toNat = m.toNat % 2 ^ 63 ∧
    se.toNat = (if (newFromBits se m).signbit then 2 ^ 15 else 0) + (newFromBits se m).exp.toNat ∧
    m.toNat = (newFromBits se m).lead * 2 ^ 63 + (newFromBits se m).frac.toNat := by
  have ha := se.isLt
  have hs : (newFromBits se m).signbit = true ↔ 2 ^ 15 ≤ se.toNat := by
    rw [signbit_eq, decide_eq_true_eq]; show se.toNat / 2 ^ 15 % 2 = 1 ↔ _; omega
  refine ⟨rfl, hs, exp_eq _, lead_eq _, frac_eq _, ?_, ?_⟩
  · rw [exp_eq, Int.toNat_natCast]
    show se.toNat = _ + se.toNat % 2 ^ 15
    split <;> rename_i h <;> rw [hs] at h <;> omega
  · rw [lead_eq, frac_eq]
    show m.toNat = m.toNat / 2 ^ 63 * 2 ^ 63 + m.toNat % 2 ^ 63
    omega

example : (newFromBits 0xC000 0xC000000000000001).signbit = true ∧ (newFromBits 0xC000 0xC000000000000001).exp = 16384 ∧
    (newFromBits 0xC000 0xC000000000000001).lead = 1 ∧
    (newFromBits 0xC000 0xC000000000000001).frac = 0x4000000000000001 := by decide +kernel

/-! ### C20 -/

/-- C20: `Big` never panics and returns the value of the bits, exactly, with precision 64, whatever the integer bit. -/
theorem C20_float80x86_big (f : Float) :
    ∃ x nan, f.big = .ok (x, nan) ∧ x.prec = 64 ∧ x.mode = .toNearestEven ∧ x.acc = .exact ∧ x.WF ∧
      Decoded f.val x nan := big_spec f

-- an unnormal: exponent of 2, integer bit clear
example : (⟨0xC000, 0x4000000000000000⟩ : Float).val = .num true 1 := by
  simp [Float.val, decode80]; norm_num
example : (⟨0x7FFF, 0⟩ : Float).val = .nan false ∧ (⟨0xFFFF, 0x8000000000000000⟩ : Float).val = .inf true := by
  simp [Float.val, decode80]

/-! ### C21 -/

/-- C21: every canonical value that is not a NaN survives `NewFromBig(f.Big())`, bit for bit and reported exact. -/
theorem C21_float80x86_big_roundtrip (f : Float) (hc : f.Canonical) (h : ∀ s, f.val ≠ .nan s) :
    ∃ x, f.big = .ok (x, false) ∧ newFromBig x = .ok (f, .exact) := by
  obtain ⟨x, nan, hb, -, -, -, hwf, hd⟩ := big_spec f
  cases hdec : f.val with
  | nan s => exact absurd hdec (h s)
  | inf s => rw [hdec] at hd; exact ⟨x, by rw [hb, hd.1], newFromBig_of_val hwf hc (by rw [hd.2, hdec])⟩
  | num s m => rw [hdec] at hd; exact ⟨x, by rw [hb, hd.1], newFromBig_of_val hwf hc (by rw [hd.2, hdec])⟩

example := C21_float80x86_big_roundtrip ⟨0xBFFF, 0xB000000000000000⟩ Sample.x_canonical (fun s h => by rw [Sample.x_val] at h; simp at h)

/-- C21: any encoding that is not a NaN, canonical or not, comes back as the canonical encoding of the same value. -/
theorem C21_float80x86_normalises (f : Float) (h : ∀ s, f.val ≠ .nan s) :
    ∃ x g, f.big = .ok (x, false) ∧ newFromBig x = .ok (g, .exact) ∧ g.Canonical ∧ g.val = f.val := by
  obtain ⟨x, nan, hb, -, -, -, hwf, hd⟩ := big_spec f
  obtain ⟨c, hc, hcd⟩ := exists_canonical f h
  have hxd : x.datum = f.val ∧ nan = false := by
    cases hdec : f.val with
    | nan s => exact absurd hdec (h s)
    | inf s => rw [hdec] at hd; exact ⟨hd.2, hd.1⟩
    | num s m => rw [hdec] at hd; exact ⟨hd.2, hd.1⟩
  obtain ⟨g, h1, h2, h3⟩ := newFromBig_of_decode hwf hc (by rw [hcd, hxd.1])
  exact ⟨x, g, by rw [hb, hxd.2], h1, h2, by rw [val_canonical h2, h3, hcd]⟩

-- an unnormal encoding of -11/8
example := C21_float80x86_normalises ⟨0xC000, 0x5800000000000000⟩ (fun s h => by simp [Float.val, decode80] at h)

/-- C21: a pseudo-denormal comes back with exponent 1 and the same significand. -/
theorem C21_float80x86_pseudo_denormal (f : Float) (h0 : f.exp = 0) (h1 : f.lead = 1) :
    ∃ x, f.big = .ok (x, false) ∧ newFromBig x = .ok (⟨f.se + 1, f.m⟩, .exact) := by
  rw [exp_eq] at h0
  rw [lead_eq] at h1
  have hlt := f.se.isLt
  have hmlt := f.m.isLt
  have he : f.se.toNat % 2 ^ 15 = 0 := by exact_mod_cast h0
  have hse : (f.se + 1).toNat = f.se.toNat + 1 := by
    rw [BitVec.toNat_add, show (1 : BitVec 16).toNat = 1 from rfl]; omega
  have hval : f.val = (⟨f.se + 1, f.m⟩ : Float).val := by
    unfold Float.val decode80
    simp only
    rw [hse, show (f.se.toNat + 1) / 2 ^ 15 = f.se.toNat / 2 ^ 15 by omega, show (f.se.toNat + 1) % 2 ^ 15 = 1 by omega, he]
    rfl
  have hn : ∀ s, f.val ≠ .nan s := by
    unfold Float.val decode80; simp only; rw [he]; simp
  obtain ⟨x, g, h2, h3, h4, h5⟩ := C21_float80x86_normalises f hn
  refine ⟨x, h2, ?_⟩
  obtain ⟨x', nan, hb, -, -, -, hwf, hd⟩ := big_spec f
  rw [h2] at hb
  simp only [Except.ok.injEq, Prod.mk.injEq] at hb
  obtain ⟨rfl, rfl⟩ := hb
  apply newFromBig_of_val hwf
  · show 2 ^ 63 ≤ f.m.toNat ↔ (f.se + 1).toNat % 2 ^ 15 ≠ 0
    rw [hse]; omega
  · rw [← hval]
    cases hdec : f.val with
    | nan s => exact absurd hdec (hn s)
    | inf s => rw [hdec] at hd; exact hd.2
    | num s m => rw [hdec] at hd; exact hd.2

example : (⟨0x8000, 0x8000000000000001⟩ : Float).exp = 0 ∧ (⟨0x8000, 0x8000000000000001⟩ : Float).lead = 1 := by decide +kernel
example : (⟨0x0000, 0x0000000000000001⟩ : Float).Canonical := by
  unfold Float.Canonical Canonical80; decide +kernel

/-! ### C22 -/

/-- C22: every double is embedded exactly and canonically, reported exact, and comes back bit for bit. -/
theorem C22_float80x86_float64 (x : F64) (h : ∀ s, double.decode x.toNat ≠ .nan s) :
    ∃ f, newFromFloat64 x = .ok (f, .exact) ∧ f.Canonical ∧ f.val = double.decode x.toNat ∧ f.float64 = .ok (x, .exact) := by
  obtain ⟨f, h1, hc, h2⟩ := newFromFloat64_spec h
  obtain ⟨y, nan, hwf, hdec, hr⟩ := float64_spec f
  rw [h2] at hdec
  obtain ⟨h3, h4⟩ := toF64_exact (F := double) (by decide) (by decide) (by decide) (by decide) hwf hdec h
  exact ⟨f, h1, hc, h2, by rw [hr, ← h4, ← decode_inj64 h3 (by rw [h3]; exact h)]⟩

example := C22_float80x86_float64 0xBFF6000000000000 (fun s h => by rw [Sample.x_double] at h; simp at h)

/-- C22: the same for float32. -/
theorem C22_float80x86_float32 (x : F32) (h : ∀ s, single.decode x.toNat ≠ .nan s) :
    ∃ f, newFromFloat32 x = .ok (f, .exact) ∧ f.Canonical ∧ f.val = single.decode x.toNat ∧ f.float32 = .ok (x, .exact) :=
  newFromFloat32_spec h

example : newFromFloat64 0x8000000000000001 = .ok (⟨0xBBCD, 0x8000000000000000⟩, .exact) := by decide +kernel
example : newFromFloat32 0x3F800001 = .ok (⟨0x3FFF, 0x8000010000000000⟩, .exact) := by decide +kernel

/-! ### C23 -/

/-- C23: `Float64` is the correctly rounded double and the accuracy is true; a NaN keeps its sign. -/
theorem C23_float80x86_float64 (f : Float) : ∃ r acc, f.float64 = .ok (r, acc) ∧ Converts64 f.val r acc := by
  obtain ⟨x, nan, hwf, hdec, hr⟩ := float64_spec f
  exact ⟨_, _, hr, toF64_converts hwf hdec⟩

/-- C23: `Float32` is the correctly rounded float32 and the accuracy is true; a NaN keeps its sign. -/
theorem C23_float80x86_float32 (f : Float) : ∃ r acc, f.float32 = .ok (r, acc) ∧ Converts32 f.val r acc := by
  obtain ⟨x, nan, hwf, hdec, hr⟩ := float32_spec f
  exact ⟨_, _, hr, toF32_converts hwf hdec⟩

-- an inexact case: 1 + 2^-63
example : (⟨0xBFFF, 0x8000000000000001⟩ : Float).float64 = .ok (0xBFF0000000000000, .above) := by decide +kernel

/-! ### C24 -/

/-- C24, full statement: a value nearest to `x` and the true accuracy (false, see below). -/
def C24_full : Prop := ∀ x : BigFloat, x.WF → ∃ f acc, newFromBig x = .ok (f, acc) ∧ f.Canonical ∧
  (∀ s m, x.datum = .num s m → extended.RoundsTo s m f.code) ∧ AccuracyTrue acc f.val x.datum

/-- `1 + 3 * 2^-65`, with precision 66. -/
def nearUpper : BigFloat :=
  { prec := 66, mode := .toNearestEven, acc := .exact, form := .finite, neg := false, mant := 2 ^ 65 + 3, exp := 1 }

theorem nearUpper_wf : nearUpper.WF :=
  ⟨by decide, fun _ => by decide +kernel, fun _ => by decide, fun _ => by decide, fun _ => by decide,
    fun _ => ⟨2 ^ 65 + 3, 0, by decide +kernel, by decide +kernel⟩⟩

theorem nearUpper_datum : nearUpper.datum = .num false (1 + 3 / 2 ^ 65) := by
  rw [BigFloat.datum_lit 66 rfl (by decide +kernel)]; norm_num [nearUpper]

theorem two_le_overflowAt : 2 ≤ extended.overflowAt := by
  unfold Format.overflowAt
  rw [ext_facts.2.1, ext_facts.2.2.1]
  have h1 : (2 : ℚ) ^ (1 : ℤ) ≤ 2 ^ (16383 : ℤ) := zpow_le_zpow_right₀ (by norm_num) (by norm_num)
  generalize (2 : ℚ) ^ (16383 : ℤ) = P at h1
  norm_num at h1 ⊢
  linarith

/-- C24 is false: `1 + 3 * 2^-65` becomes 1 although `1 + 2^-63` is nearer. -/
theorem C24_false : ¬ C24_full := by
  intro h
  obtain ⟨f, acc, h, -, hr, -⟩ := h nearUpper nearUpper_wf
  have he : newFromBig nearUpper = .ok (⟨0x3FFF, 0x8000000000000000⟩, .below) := by decide +kernel
  rw [he] at h
  simp only [Except.ok.injEq, Prod.mk.injEq] at h
  have hr := hr _ _ nearUpper_datum
  rw [← h.1, show (⟨0x3FFF, 0x8000000000000000⟩ : Float).code = 0x3FFF * 2 ^ 63 by decide +kernel] at hr
  unfold Format.RoundsTo at hr
  rw [if_neg (by have := two_le_overflowAt; rw [not_le]; refine lt_of_lt_of_le ?_ this; norm_num)] at hr
  obtain ⟨r, hr1, hr2, -⟩ := hr
  have h1 : extended.decode (0x3FFF * 2 ^ 63) = .num false 1 := by simp [Format.decode, extended, Format.bias]
  have h2 : extended.decode (0x3FFF * 2 ^ 63 + 1) = .num false (1 + 1 / 2 ^ 63) := by
    simp [Format.decode, extended, Format.bias]
  rw [h1] at hr1
  simp only [Datum.num.injEq, true_and] at hr1
  have := hr2 _ _ _ h2
  rw [← hr1] at this
  norm_num [signed, abs_le] at this

/-- C24, accuracy: false for negative numbers, `-(1 + 3 * 2^-65)` becomes `-1`, which is larger, but Below is reported. -/
theorem C24_false_accuracy : ¬ ∀ x : BigFloat, x.WF → ∃ f acc, newFromBig x = .ok (f, acc) ∧
    AccuracyTrue acc f.val x.datum := by
  intro h
  have hwf : ({ nearUpper with neg := true } : BigFloat).WF := nearUpper_wf.withSign true
  obtain ⟨f, acc, h, ha⟩ := h _ hwf
  have he : newFromBig { nearUpper with neg := true } = .ok (⟨0xBFFF, 0x8000000000000000⟩, .below) := by decide +kernel
  rw [he] at h
  simp only [Except.ok.injEq, Prod.mk.injEq] at h
  rw [← h.1, ← h.2] at ha
  obtain ⟨a, b, h1, h2, h3⟩ := ha
  have hd : (⟨0xBFFF, 0x8000000000000000⟩ : Float).val = .num true 1 := by
    simp [Float.val, decode80]; norm_num
  have hb : ({ nearUpper with neg := true } : BigFloat).datum = .num true (1 + 3 / 2 ^ 65) := by
    rw [BigFloat.datum_lit 66 rfl (by decide +kernel)]; norm_num [nearUpper]
  rw [hd] at h1; rw [hb] at h2
  simp only [Datum.key, Option.some.injEq] at h1 h2
  rw [← h1, ← h2] at h3
  norm_num [keyLt, signed] at h3

/-- C24 is false below the smallest subnormal, and everywhere there: every such number becomes the largest subnormal,
`(2^63 - 1) * 2^-16445`, reported Below. -/
theorem C24_false_underflow (x : BigFloat) (hx : x.WF) {s : Bool} {m : ℚ} (hd : x.datum = .num s m) (h1 : 0 < m)
    (h2 : m < 2 ^ (-16445 : ℤ)) :
    ∃ f, newFromBig x = .ok (f, .below) ∧ f.val = .num s ((2 ^ 63 - 1) * (2 : ℚ) ^ (-16445 : ℤ)) := by
  obtain ⟨hneg, -, hfin⟩ := BigFloat.datum_inj_form hx hd
  obtain ⟨hf, hmag⟩ := hfin h1.ne'
  have hhi : x.exp ≤ -16445 := BigFloat.exp_lt_of_mag (hx.mant_pos hf) (by rw [hmag]; exact h2)
  obtain ⟨f, acc, hr, -, hb, -⟩ := newFromBig_finite hx hf
  obtain ⟨b1, b2, b3⟩ := hb (by omega)
  refine ⟨f, by rw [hr, b3], ?_⟩
  rw [hneg] at b1
  unfold Float.val decode80
  rw [b1, b2, show (0x7FFFFFFFFFFFFFFF : BitVec 64).toNat = 2 ^ 63 - 1 from rfl]
  have hs : decide ((if s = true then 1 else 0) * 2 ^ 15 / 2 ^ 15 % 2 = 1) = s := by cases s <;> rfl
  have he : (if s = true then 1 else 0) * 2 ^ 15 % 2 ^ 15 = 0 := by cases s <;> rfl
  simp only [hs, he]
  rw [if_neg (by norm_num), show ((max 0 1 : ℕ) - 16383 - 63 : ℤ) = -16445 by norm_num]
  generalize (2 : ℚ) ^ (-16445 : ℤ) = P
  congr 1
  norm_num

example := C24_false_underflow Sample.z Sample.z_wf Sample.z_datum Sample.z_pos (Sample.z_lt _ (by norm_num))

/-- C24 is false at overflow: every number with magnitude in `[2^16384 * (1 + 2^-63), 2^16385)` becomes a NaN. -/
theorem C24_false_overflow (x : BigFloat) (hx : x.WF) {s : Bool} {m : ℚ} (hd : x.datum = .num s m)
    (h1 : (2 : ℚ) ^ (16384 : ℤ) * (1 + 1 / 2 ^ 63) ≤ m) (h2 : m < 2 ^ (16385 : ℤ)) :
    ∃ f acc, newFromBig x = .ok (f, acc) ∧ f.val = .nan s := by
  have hP : (0 : ℚ) < 2 ^ (16384 : ℤ) := by positivity
  obtain ⟨hneg, -, hfin⟩ := BigFloat.datum_inj_form hx hd
  obtain ⟨hf, hmag⟩ := hfin (by
    intro h; rw [h] at h1
    have : (0 : ℚ) < 2 ^ (16384 : ℤ) * (1 + 1 / 2 ^ 63) := by positivity
    exact absurd h1 (not_le.2 this))
  have hexp : x.exp = 16385 := BigFloat.exp_of_mag (hx.mant_pos hf) (by
      rw [hmag, show (16385 : ℤ) - 1 = 16384 by norm_num]
      refine le_trans ?_ h1
      exact le_mul_of_one_le_right hP.le (by norm_num)) (by rw [hmag]; exact h2)
  obtain ⟨f, acc, hr, -, -, hb⟩ := newFromBig_finite hx hf
  obtain ⟨b1, b2, b3, -⟩ := hb (by omega)
  rw [hexp, hneg] at b1
  rw [hexp, hmag] at b2
  have hfl1 : 2 ^ 63 + 1 ≤ ⌊m * 2 ^ ((64 : ℤ) - 16385)⌋ := by
    rw [Int.le_floor]
    have h3 := mul_le_mul_of_nonneg_right h1 (show (0 : ℚ) ≤ 2 ^ ((64 : ℤ) - 16385) by positivity)
    refine le_trans (le_of_eq ?_) h3
    rw [mul_right_comm, ← zpow_add₀ (by norm_num), show (16384 : ℤ) + (64 - 16385) = (63 : ℕ) by norm_num, zpow_natCast]
    norm_num
  rw [← b2] at hfl1
  refine ⟨f, acc, hr, ?_⟩
  have hse : f.se.toNat = (if s then 1 else 0) * 2 ^ 15 + 32767 := by
    rw [show ((16385 : ℤ) + 16382) % 2 ^ 15 = 32767 by norm_num] at b1
    cases s <;> simp only [Bool.false_eq_true, if_true, if_false] at b1 ⊢ <;> omega
  unfold Float.val decode80
  rw [hse]
  have hs : decide (((if s = true then 1 else 0) * 2 ^ 15 + 32767) / 2 ^ 15 % 2 = 1) = s := by cases s <;> rfl
  have he : ((if s = true then 1 else 0) * 2 ^ 15 + 32767) % 2 ^ 15 = 2 ^ 15 - 1 := by cases s <;> rfl
  simp only [hs, he, if_true]
  rw [if_neg (by omega)]

/-- C24 is false further out: numbers with magnitude in `[2^16385, 2^16386)` get the exponent 0 with the integer bit set,
a pseudo-denormal below 2^-16381. -/
theorem C24_false_wrap (x : BigFloat) (hx : x.WF) {s : Bool} {m : ℚ} (hd : x.datum = .num s m)
    (h1 : (2 : ℚ) ^ (16385 : ℤ) ≤ m) (h2 : m < 2 ^ (16386 : ℤ)) :
    ∃ f acc, newFromBig x = .ok (f, acc) ∧ ¬ f.Canonical ∧ f.exp = 0 ∧ f.signbit = s := by
  have hP : (0 : ℚ) < 2 ^ (16385 : ℤ) := by positivity
  obtain ⟨hneg, -, hfin⟩ := BigFloat.datum_inj_form hx hd
  obtain ⟨hf, hmag⟩ := hfin (by intro h; rw [h] at h1; exact absurd h1 (not_le.2 hP))
  have hexp : x.exp = 16386 := BigFloat.exp_of_mag (hx.mant_pos hf) (by
      rw [hmag, show (16386 : ℤ) - 1 = 16385 by norm_num]; exact h1) (by rw [hmag]; exact h2)
  obtain ⟨f, acc, hr, -, -, hb⟩ := newFromBig_finite hx hf
  obtain ⟨b1, b2, b3, -⟩ := hb (by omega)
  rw [hexp, hneg, show ((16386 : ℤ) + 16382) % 2 ^ 15 = 0 by norm_num] at b1
  refine ⟨f, acc, hr, ?_, ?_, ?_⟩
  · unfold Float.Canonical Canonical80
    cases s <;> simp only [Bool.false_eq_true, if_true, if_false] at b1 <;> omega
  · rw [exp_eq]
    cases s <;> simp only [Bool.false_eq_true, if_true, if_false] at b1 <;> omega
  · rw [signbit_eq]
    cases s <;> simp only [Bool.false_eq_true, if_true, if_false] at b1 <;> simp <;> omega

/-- `3/4 * 2^e`, with precision 2. -/
def threeQuarters (e : ℤ) : BigFloat :=
  { prec := 2, mode := .toNearestEven, acc := .exact, form := .finite, neg := false, mant := 3, exp := e }

theorem threeQuarters_spec {e : ℤ} (h : -20000 ≤ e ∧ e ≤ 20000) :
    (threeQuarters e).WF ∧ (threeQuarters e).datum = .num false (3 / 4 * 2 ^ e) := by
  refine ⟨⟨by show (2 : ℕ) ≤ _; decide, fun _ => by show 0 < 3; decide, fun _ => ?_, fun _ => ?_, fun _ => by show 1 ≤ 2; decide,
    fun _ => ⟨3, 0, rfl, by show (3 : ℕ) < 2 ^ 2; decide⟩⟩, ?_⟩
  · show BigFloat.MinExp ≤ e; unfold BigFloat.MinExp; omega
  · show e ≤ BigFloat.MaxExp; unfold BigFloat.MaxExp; omega
  · rw [BigFloat.datum_lit 2 rfl (show bitLen 3 = 2 by decide +kernel)]
    show Datum.num false (((3 : ℕ) : ℚ) / 2 ^ 2 * 2 ^ e) = _
    norm_num

-- inputs meeting the hypotheses of the refutations
example : (0 : ℚ) < 3 / 4 * 2 ^ (-16445 : ℤ) ∧ 3 / 4 * (2 : ℚ) ^ (-16445 : ℤ) < 2 ^ (-16445 : ℤ) := by
  have hP : (0 : ℚ) < 2 ^ (-16445 : ℤ) := by positivity
  generalize (2 : ℚ) ^ (-16445 : ℤ) = P at hP
  constructor <;> linarith
example : (2 : ℚ) ^ (16384 : ℤ) * (1 + 1 / 2 ^ 63) ≤ 3 / 4 * 2 ^ (16385 : ℤ) ∧
    3 / 4 * (2 : ℚ) ^ (16385 : ℤ) < 2 ^ (16385 : ℤ) := by
  have hP : (0 : ℚ) < 2 ^ (16384 : ℤ) := by positivity
  have h1 : (2 : ℚ) ^ (16385 : ℤ) = 2 ^ (16384 : ℤ) * 2 := by rw [← zpow_add_one₀ (by norm_num)]; rfl
  rw [h1]
  generalize (2 : ℚ) ^ (16384 : ℤ) = P at hP
  norm_num
  constructor <;> linarith
example : (2 : ℚ) ^ (16385 : ℤ) ≤ 3 / 4 * 2 ^ (16386 : ℤ) ∧ 3 / 4 * (2 : ℚ) ^ (16386 : ℤ) < 2 ^ (16386 : ℤ) := by
  have hP : (0 : ℚ) < 2 ^ (16385 : ℤ) := by positivity
  have h1 : (2 : ℚ) ^ (16386 : ℤ) = 2 ^ (16385 : ℤ) * 2 := by rw [← zpow_add_one₀ (by norm_num)]; rfl
  rw [h1]
  generalize (2 : ℚ) ^ (16385 : ℤ) = P at hP
  constructor <;> linarith
example : newFromBig (threeQuarters (-16445)) = .ok (⟨0x0000, 0x7FFFFFFFFFFFFFFF⟩, .below) := by decide +kernel

/-- C24, the part that holds: with magnitude in `[2^-16445, 2^16384)`, `NewFromBig` rounds toward zero: the result is
canonical, has the sign of `x` and the largest magnitude not exceeding that of `x`; a number of the format is kept and
reported exact; and from 2^-16382 on, Exact is reported only for those, and Below otherwise. Missing, because false:
rounding to nearest, overflow, underflow, the accuracy of subnormals and of negative numbers. -/
theorem C24_partial (x : BigFloat) (hx : x.WF) {s : Bool} {m : ℚ} (hd : x.datum = .num s m)
    (h1 : (2 : ℚ) ^ (-16445 : ℤ) ≤ m) (h2 : m < 2 ^ (16384 : ℤ)) :
    ∃ f acc r, newFromBig x = .ok (f, acc) ∧ f.Canonical ∧ f.val = .num s r ∧ r ≤ m ∧
      (∀ (g : Float) s' r', g.val = .num s' r' → r' ≤ m → r' ≤ r) ∧
      ((∃ g : Float, g.val = .num s m) → r = m ∧ acc = .exact) ∧
      ((2 : ℚ) ^ (-16382 : ℤ) ≤ m → acc = if r = m then .exact else .below) := by
  obtain ⟨f1, f2, f3, f4, f5⟩ := ext_facts
  have hm0 : m ≠ 0 := by have : (0 : ℚ) < 2 ^ (-16445 : ℤ) := by positivity
                         intro h; linarith
  obtain ⟨hneg, -, hfin⟩ := BigFloat.datum_inj_form hx hd
  obtain ⟨hf, hmag⟩ := hfin hm0
  have hlo : -16445 < x.exp := BigFloat.exp_gt_of_mag (by rw [hmag]; exact h1)
  have hhi : x.exp ≤ 16384 := BigFloat.exp_lt_of_mag (hx.mant_pos hf) (by rw [hmag]; exact h2)
  obtain ⟨f, acc, n, hr, hcan, hb, hn1, hn2, hn3, ha1, ha2⟩ := newFromBig_range hx hf (by rw [f1]; exact hlo) (by rw [f2]; omega)
  rw [hmag] at hn2 hn3
  have hmax : ∀ (g : Float) s' r', g.val = .num s' r' → r' ≤ m → r' ≤ extended.magc n := by
    intro g s' r' hc hle
    obtain ⟨c, -, hcd⟩ := exists_canonical g (by rw [hc]; simp)
    rw [hc] at hcd
    obtain ⟨n', -, hr', -, -⟩ := extended.code_of_decode hcd
    rw [hr'] at hle ⊢
    have : n' < n + 1 := extended.magc_strictMono.lt_iff_lt.1 (hle.trans_lt hn3)
    exact extended.magc_strictMono.monotone (by omega)
  rw [f2] at ha1 ha2
  refine ⟨f, acc, extended.magc n, hr, hcan, ?_, hn2, hmax, ?_, ?_⟩
  · rw [val_canonical hcan, hb, extended.decode_code _ hn1, hneg]
  · rintro ⟨g, hc⟩
    have heq : extended.magc n = m := le_antisymm hn2 (hmax g s m hc le_rfl)
    refine ⟨heq, ?_⟩
    by_cases h : x.exp - 1 + 16383 ≤ 0
    · exact ha1 h
    · rw [ha2 (by omega), hmag, if_pos heq]
  · intro h
    have hexp : -16382 < x.exp := BigFloat.exp_gt_of_mag (by rw [hmag]; exact h)
    rw [ha2 (by omega), hmag]

example : nearUpper.datum = .num false (1 + 3 / 2 ^ 65) ∧ (2 : ℚ) ^ (-16445 : ℤ) ≤ 1 + 3 / 2 ^ 65 ∧
    (1 + 3 / 2 ^ 65 : ℚ) < 2 ^ (16384 : ℤ) := by
  refine ⟨nearUpper_datum, ?_, ?_⟩
  · refine le_trans (zpow_le_one_of_nonpos₀ (by norm_num) (by norm_num)) (by norm_num)
  · refine lt_of_lt_of_le (b := (2 : ℚ) ^ (1 : ℤ)) (by norm_num) (zpow_le_zpow_right₀ (by norm_num) (by norm_num))

/-! ### C11 (float80x86) -/

/-- C11 for `float80x86.NewFromBig`: it never panics, and the sign is kept for every number, infinity or zero. -/
theorem C11_float80x86_big (x : BigFloat) (hx : x.WF) : ∃ f acc, newFromBig x = .ok (f, acc) ∧ f.signbit = x.signbit := by
  cases hf : x.form with
  | zero => refine ⟨_, _, newFromBig_zero hf, ?_⟩; unfold BigFloat.signbit; cases x.neg <;> decide
  | inf => refine ⟨_, _, newFromBig_inf hf, ?_⟩; unfold BigFloat.signbit; cases x.neg <;> decide
  | finite =>
    obtain ⟨f, acc, hr, h1, h2, h3⟩ := newFromBig_finite hx hf
    refine ⟨f, acc, hr, ?_⟩
    rw [signbit_eq]
    unfold BigFloat.signbit
    by_cases h : x.exp + 16382 ≤ 0
    · have : f.se.toNat = (if x.neg then 1 else 0) * 2 ^ 15 := by
        by_cases h' : x.exp + 16382 ≤ -63
        · exact (h2 h').1
        · exact (h1 (by omega) h).1
      rw [this]; cases x.neg <;> rfl
    · have := (h3 (by omega)).1
      cases hn : x.neg <;> rw [hn] at this <;> simp only [Bool.false_eq_true, if_true, if_false] at this <;> simp <;> omega

example := C11_float80x86_big Sample.z Sample.z_wf

/-- C11 for `float80x86.NewFromFloat64`: the sign is kept for every double, NaNs included. -/
theorem C11_float80x86_float64 (x : F64) : ∃ f acc, newFromFloat64 x = .ok (f, acc) ∧ f.signbit = F64.signbit x := by
  rw [signbit64_eq]
  by_cases hn : ∃ s, double.decode x.toNat = .nan s
  · obtain ⟨s, hs⟩ := hn
    refine ⟨_, _, newFromFloat64_nan ((isNaN64_iff x).2 ⟨s, hs⟩), ?_⟩
    rw [hs]; cases s <;> decide +kernel
  · push Not at hn
    obtain ⟨f, h1, -, h2⟩ := newFromFloat64_spec hn
    exact ⟨f, _, h1, by rw [← val_sign, h2]⟩

/-- C11 for `float80x86.NewFromFloat32`. -/
theorem C11_float80x86_float32 (x : F32) : ∃ f acc, newFromFloat32 x = .ok (f, acc) ∧ f.signbit = F32.signbit x := by
  rw [signbit32_eq]
  by_cases hn : ∃ s, single.decode x.toNat = .nan s
  · obtain ⟨s, hs⟩ := hn
    refine ⟨_, _, newFromFloat32_nan hs, ?_⟩
    rw [hs]; cases s <;> decide +kernel
  · push Not at hn
    obtain ⟨f, h1, -, h2, -⟩ := newFromFloat32_spec hn
    exact ⟨f, _, h1, by rw [← val_sign, h2]⟩

/-! ### C12 (float80x86) -/

/-- C12: the six constants denote what their names say. -/
theorem C12_float80x86_constants :
    NaN.val = .nan false ∧ NegNaN.val = .nan true ∧ Inf.val = .inf false ∧ NegInf.val = .inf true ∧
    Zero.val = .num false 0 ∧ NegZero.val = .num true 0 := by
  refine ⟨?_, ?_, ?_, ?_, ?_, ?_⟩
  · simp [Float.val, decode80, NaN]
  · simp [Float.val, decode80, NegNaN]
  · simp [Float.val, decode80, Inf]
  · simp [Float.val, decode80, NegInf]
  · have := code_zero false; simp only [Bool.false_eq_true, if_false] at this
    rw [val_canonical this.2, this.1, (roundsTo_zero extended (by decide) false).1]
  · have := code_zero true; simp only [if_true] at this
    rw [val_canonical this.2, this.1, (roundsTo_zero extended (by decide) true).1]

/-- C12: zeros and infinities as `big.Float`, whatever their precision, mode and accuracy. -/
theorem C12_float80x86_big (x : BigFloat) (hx : x.WF) :
    (∀ s, x.datum = .num s 0 → newFromBig x = .ok (if s then NegZero else Zero, .exact)) ∧
    (∀ s, x.datum = .inf s → newFromBig x = .ok (if s then NegInf else Inf, .exact)) := by
  constructor
  · intro s h
    obtain ⟨hn, hz, -⟩ := BigFloat.datum_inj_form hx h
    rw [newFromBig_zero (hz rfl), hn]
  · intro s h
    obtain ⟨hn, hz⟩ := BigFloat.datum_inf h
    rw [newFromBig_inf hz, hn]

example := (C12_float80x86_big Sample.zero Sample.zero_wf).1 true Sample.zero_datum
example := (C12_float80x86_big Sample.inf Sample.inf_wf).2 true Sample.inf_datum

/-- Canonical encodings of the same datum are equal, unless it is a NaN. -/
theorem val_inj {f g : Float} (hf : f.Canonical) (hg : g.Canonical) (h : f.val = g.val) (hn : ∀ s, f.val ≠ .nan s) : f = g := by
  obtain ⟨x, h1, h2⟩ := C21_float80x86_big_roundtrip f hf hn
  obtain ⟨x', nan, hb, -, -, -, hwf, hd⟩ := big_spec f
  rw [h1] at hb
  simp only [Except.ok.injEq, Prod.mk.injEq] at hb
  rw [← hb.1] at hwf hd
  have hxd : x.datum = f.val := by
    cases hdec : f.val with
    | nan s => exact absurd hdec (hn s)
    | inf s => rw [hdec] at hd; exact hd.2
    | num s m => rw [hdec] at hd; exact hd.2
  have h3 := newFromBig_of_val hwf hg (by rw [hxd, h])
  rw [h2] at h3
  simpa using h3

theorem special_val (s : Bool) : (if s then NegZero else Zero).val = .num s 0 ∧ (if s then NegInf else Inf).val = .inf s := by
  obtain ⟨-, -, h1, h2, h3, h4⟩ := C12_float80x86_constants
  cases s <;> simp only [Bool.false_eq_true, if_true, if_false, h1, h2, h3, h4, and_self]

/-- C12: zeros, infinities and NaNs (with every payload) as float64. -/
theorem C12_float80x86_float64 (x : F64) (s : Bool) :
    (double.decode x.toNat = .num s 0 → newFromFloat64 x = .ok (if s then NegZero else Zero, .exact)) ∧
    (double.decode x.toNat = .inf s → newFromFloat64 x = .ok (if s then NegInf else Inf, .exact)) ∧
    (double.decode x.toNat = .nan s → newFromFloat64 x = .ok (if s then NegNaN else NaN, .exact)) := by
  refine ⟨fun h => ?_, fun h => ?_, fun h => by
    rw [newFromFloat64_nan ((isNaN64_iff x).2 ⟨s, h⟩), h]; rfl⟩
  · obtain ⟨f, h1, hc, h2⟩ := newFromFloat64_spec (x := x) (by rw [h]; simp)
    rw [h1, val_inj (f := f) (g := if s then NegZero else Zero) hc (code_zero s).2 (by
      rw [h2, h, (special_val s).1]) (by rw [h2, h]; simp)]
  · obtain ⟨f, h1, hc, h2⟩ := newFromFloat64_spec (x := x) (by rw [h]; simp)
    rw [h1, val_inj (f := f) (g := if s then NegInf else Inf) hc (code_inf s).2 (by
      rw [h2, h, (special_val s).2]) (by rw [h2, h]; simp)]

example := (C12_float80x86_float64 0xFFF8000000000001 true).2.2 Sample.nan_double

/-- C12: zeros, infinities and NaNs (with every payload) as float32. -/
theorem C12_float80x86_float32 (x : F32) (s : Bool) :
    (single.decode x.toNat = .num s 0 → newFromFloat32 x = .ok (if s then NegZero else Zero, .exact)) ∧
    (single.decode x.toNat = .inf s → newFromFloat32 x = .ok (if s then NegInf else Inf, .exact)) ∧
    (single.decode x.toNat = .nan s → newFromFloat32 x = .ok (if s then NegNaN else NaN, .exact)) := by
  refine ⟨fun h => ?_, fun h => ?_, newFromFloat32_nan⟩
  · obtain ⟨f, h1, hc, h2, -⟩ := newFromFloat32_spec (x := x) (by rw [h]; simp)
    rw [h1, val_inj (f := f) (g := if s then NegZero else Zero) hc (code_zero s).2 (by
      rw [h2, h, (special_val s).1]) (by rw [h2, h]; simp)]
  · obtain ⟨f, h1, hc, h2, -⟩ := newFromFloat32_spec (x := x) (by rw [h]; simp)
    rw [h1, val_inj (f := f) (g := if s then NegInf else Inf) hc (code_inf s).2 (by
      rw [h2, h, (special_val s).2]) (by rw [h2, h]; simp)]

example : newFromFloat64 0xFFF4000000000000 = .ok (NegNaN, .exact) := by decide +kernel

end GoFloat.Float80x86
