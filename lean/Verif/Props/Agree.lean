import Verif.Proofs.Sample
import Verif.Props.Accuracy
import Verif.Props.Cross
import Verif.Props.Float128ppcModes
/-
The three constructors of a package agree with each other (C74 of properties.jsonl).
-/
namespace GoFloat
open Spec

theorem datum_not_nan (x : BigFloat) (s : Bool) : x.datum ≠ .nan s := by
  unfold BigFloat.datum
  split <;> simp

theorem not_isNaN {x : F64} {y : BigFloat} (h : y.datum = double.decode x.toNat) : F64.isNaN x = false := by
  rw [Bool.eq_false_iff, Ne, isNaN64_iff]
  rintro ⟨s, hs⟩
  exact datum_not_nan y s (h.trans hs)

namespace Binary128

/-- C74: `binary128.NewFromFloat64` is `NewFromBig` of the big.Float of the same value, whatever its precision and rounding mode. -/
theorem C74_binary128_big (x : F64) (y : BigFloat) (hy : y.WF) (h : y.datum = double.decode x.toNat) : newFromBig y = newFromFloat64 x := by
  obtain ⟨z, z1, z2, z3⟩ := newFromFloat64_eq (not_isNaN h)
  rw [z3]
  exact C55_binary128_value y z hy z1 (h.trans z2.symm)

example := C74_binary128_big 0xBFF6000000000000 Sample.x Sample.x_wf (Sample.x_datum.trans Sample.x_double.symm)

/-- C74: `binary128.NewFromFloat32(x)` is `NewFromFloat64(float64(x))`, for every float32. -/
theorem C74_binary128_float32 (x : F32) : newFromFloat32 x = newFromFloat64 (f32to64 x) := by
  by_cases hn : ∃ s, single.decode x.toNat = .nan s
  · obtain ⟨s, hs⟩ := hn
    rw [newFromFloat32_nan hs, (C12_binary128_float64 _ s).2.2 ((f32to64_decode x).1 s hs)]
  · have hd := (f32to64_decode x).2 hn
    push Not at hn
    obtain ⟨f, h1, h2, -⟩ := C16_binary128_float32 x hn
    obtain ⟨g, g1, g2, -⟩ := C16_binary128_float64 (f32to64 x) (by rw [hd]; exact hn)
    rw [h1, g1, decode_inj (f := f) (g := g) (by rw [h2, g2, hd]) (by rw [h2]; exact hn)]
end Binary128

namespace Float80x86

/-- C74: the same for `float80x86`. -/
theorem C74_float80x86_big (x : F64) (y : BigFloat) (hy : y.WF) (h : y.datum = double.decode x.toNat) : newFromBig y = newFromFloat64 x := by
  obtain ⟨z, z1, z2, z3⟩ := newFromFloat64_eq (not_isNaN h)
  rw [z3]
  exact C55_float80x86_value y z hy z1 (h.trans z2.symm)

example := C74_float80x86_big 0xBFF6000000000000 Sample.x Sample.x_wf (Sample.x_datum.trans Sample.x_double.symm)

theorem C74_float80x86_float32 (x : F32) : newFromFloat32 x = newFromFloat64 (f32to64 x) := by
  by_cases hn : ∃ s, single.decode x.toNat = .nan s
  · obtain ⟨s, hs⟩ := hn
    rw [newFromFloat32_nan hs, (C12_float80x86_float64 _ s).2.2 ((f32to64_decode x).1 s hs)]
  · have hd := (f32to64_decode x).2 hn
    push Not at hn
    obtain ⟨f, h1, hc, h2, -⟩ := C22_float80x86_float32 x hn
    obtain ⟨g, g1, gc, g2, -⟩ := C22_float80x86_float64 (f32to64 x) (by rw [hd]; exact hn)
    rw [h1, g1, val_inj (f := f) (g := g) hc gc (by rw [h2, g2, hd]) (by rw [h2]; exact hn)]
end Float80x86

namespace Float128ppc

/-- C74: `float128ppc.NewFromBig` of the big.Float of a double, whatever its precision and rounding mode, is what `NewFromFloat64` gives,
except for negative infinity. -/
theorem C74_float128ppc_big (x : F64) (y : BigFloat) (hy : y.WF) (h : y.datum = double.decode x.toNat) (hi : double.decode x.toNat ≠ .inf true) :
    ∃ y', newFromBig y = .ok ((⟨x, 0⟩, .exact), y') ∧ newFromFloat64 x = .ok (⟨x, 0⟩, .exact) := by
  have hn := not_isNaN h
  suffices h : ∃ y', newFromBig y = .ok ((⟨x, 0⟩, .exact), y') by
    obtain ⟨y', h⟩ := h
    exact ⟨y', h, newFromFloat64_num hn⟩
  by_cases hf : y.form = .finite
  · have hd := h
    rw [BigFloat.datum_finite hf] at hd
    have hpos := BigFloat.mag_pos (hy.mant_pos hf)
    obtain ⟨N, q, e1, e2⟩ := decode_dyadic hd.symm
    obtain ⟨n, h1, h2, -, -⟩ := double.code_of_decode hd.symm
    have hsv : y.sval = signed y.neg y.mag := BigFloat.sval_finite hf
    have hv : RoundsToBitsIn y.mode 106 y.sval y.sval := by
      refine roundsToBitsIn_self ⟨if y.neg then -N else N, q, ?_, by rw [hsv, e1]; unfold signed; cases y.neg <;> simp⟩
      have : N < 2 ^ 106 := lt_of_lt_of_le e2 (by decide +kernel)
      split
      · rw [abs_neg]; exact_mod_cast this
      · exact_mod_cast this
    have habs : |y.sval| = y.mag := by rw [hsv, BigFloat.signed_abs hpos.le]
    have hlt : y.mag < double.overflowAt := by rw [h2]; exact magc_lt_overflow h1
    obtain ⟨f, y', r1, mh, r2, r3, r4, -⟩ := C29_modes_nearest y hy hf hv (by rw [habs]; exact hlt)
    rw [habs] at r3
    have hself : double.RoundsTo y.neg y.mag x.toNat := by
      unfold Format.RoundsTo
      rw [if_neg (not_le.2 hlt)]
      refine ⟨y.mag, hd.symm, fun c' s r' _ => by simp, fun c' s r' _ hne heq => ?_⟩
      rw [sub_self, abs_zero, eq_comm, abs_eq_zero, sub_eq_zero] at heq
      exact absurd heq.symm hne
    have hu := RoundsTo.unique (by decide) r3 hself
    have hnn : ∀ s, double.decode x.toNat ≠ .nan s := fun s hs => datum_not_nan y s (h.trans hs)
    have hh : f.high = x := decode_inj64 hu (by rw [hu]; exact hnn)
    have hmh : mh = y.mag := by
      rw [hh, ← hd] at r2; simpa using r2.symm
    have hl : f.low = 0 := r4 (by rw [hsv, hmh, sub_self])
    exact ⟨y', by rw [r1, ← hh, ← hl]⟩
  · cases hc : y.form with
    | finite => exact absurd hc hf
    | zero =>
      rw [newFromBig_zero hc]
      have hz : double.decode (if y.neg then NegZero else Zero).high.toNat = .num y.neg 0 := by
        cases y.neg
        · show double.decode 0 = _
          norm_num [Format.decode, double]
        · show double.decode 0x8000000000000000 = _
          norm_num [Format.decode, double]
      have hv : x = (if y.neg then NegZero else Zero).high :=
        decode_inj64 (by rw [← h, hz]; unfold BigFloat.datum; rw [hc]) fun s hs => datum_not_nan y s (h.trans hs)
      refine ⟨y, ?_⟩
      rw [hv]; cases y.neg <;> rfl
    | inf =>
      rw [newFromBig_inf hc]
      have hneg : y.neg = false := by
        cases hb : y.neg
        · rfl
        · exact absurd (by rw [← h]; unfold BigFloat.datum; rw [hc, hb]) hi
      have hz : double.decode Inf.high.toNat = .inf false := by
        show double.decode 0x7FF0000000000000 = _
        norm_num [Format.decode, double]
      have hv : x = Inf.high := decode_inj64 (by rw [← h, hz, ← hneg]; unfold BigFloat.datum; rw [hc]) fun s hs => datum_not_nan y s (h.trans hs)
      rw [hv, hneg]
      exact ⟨y, rfl⟩

example := C74_float128ppc_big 0xBFF6000000000000 Sample.x Sample.x_wf (Sample.x_datum.trans Sample.x_double.symm)
  (by rw [Sample.x_double]; simp)

/-- C56: a number that is a double becomes that double and zero in float128ppc, whatever the precision and the rounding
mode of the variable that holds it. -/
theorem C56_float128ppc_double_modes (x : BigFloat) (hx : x.WF) (val : F64) (hd : x.datum = double.decode val.toNat) (hi : x.datum ≠ .inf true) :
    ∃ x', newFromBig x = .ok ((⟨val, 0⟩, .exact), x') := by
  obtain ⟨x', h, -⟩ := C74_float128ppc_big val x hx hd (hd ▸ hi)
  exact ⟨x', h⟩

example := C56_float128ppc_double_modes { Sample.x with mode := .toZero } ⟨by decide, by decide, by decide, by decide, by decide, fun _ => ⟨11, 0, by decide, by decide⟩⟩
  0xBFF6000000000000 (Sample.x_datum.trans Sample.x_double.symm) (by
    rw [show BigFloat.datum { Sample.x with mode := .toZero } = _ from Sample.x_datum]; simp)

/-- C74, the exception: negative infinity. `NewFromFloat64` gives a pair that denotes it, `NewFromBig` one that denotes positive infinity. -/
theorem C74_float128ppc_negInf (x : F64) (y : BigFloat) (h : y.datum = double.decode x.toNat) (hi : double.decode x.toNat = .inf true) :
    newFromBig y = .ok ((⟨0x7FF0000000000000, 0⟩, .exact), y) ∧ newFromFloat64 x = .ok (⟨0xFFF0000000000000, 0⟩, .exact) := by
  have hx : x = 0xFFF0000000000000 := decode_inj64 (by
    rw [hi]
    show _ = double.decode 0xFFF0000000000000
    norm_num [Format.decode, double]) (by rw [hi]; simp)
  have hform : y.form = .inf ∧ y.neg = true := by
    rw [hi] at h
    unfold BigFloat.datum at h
    split at h <;> simp_all
  constructor
  · rw [newFromBig_inf hform.1, hform.2]
    rfl
  · rw [newFromFloat64_num (not_isNaN h), hx]

example := C74_float128ppc_negInf 0xFFF0000000000000 Sample.inf (Sample.inf_datum.trans Sample.inf_double.symm) Sample.inf_double

/-- C74: `float128ppc.NewFromFloat32(x)` is `NewFromFloat64(float64(x))`, for every float32. -/
theorem C74_float128ppc_float32 (x : F32) : newFromFloat32 x = newFromFloat64 (f32to64 x) := by
  by_cases hn : ∃ s, single.decode x.toNat = .nan s
  · obtain ⟨s, hs⟩ := hn
    have hd := (f32to64_decode x).1 s hs
    unfold newFromFloat32
    rw [newFromFloat64_nan ((isNaN64_iff _).2 ⟨s, hd⟩)]
    cases F64.signbit (f32to64 x) <;> decide
  · have hd := (f32to64_decode x).2 hn
    push Not at hn
    obtain ⟨y, h1, h2, -⟩ := C28_float128ppc_float32 x hn
    obtain ⟨g1, -⟩ := C28_float128ppc_float64 (f32to64 x) (by rw [hd]; exact hn)
    rw [h2, g1, decode_inj64 (h1.trans hd.symm) (by rw [h1]; exact hn)]
end Float128ppc

namespace Binary16

/-- C74: for `binary16` the two agree on every double with at most 11 significant bits, on zeros and on infinities. -/
theorem C74_binary16_big (x : F64) (y : BigFloat) (hy : y.WF) (h : y.datum = double.decode x.toNat)
    (hfit : ∀ s m, double.decode x.toNat = .num s m → ∃ k : ℕ, ∃ e : ℤ, k < 2 ^ 11 ∧ m = k * (2 : ℚ) ^ e) : newFromBig y = newFromFloat64 x := by
  cases hd : double.decode x.toNat with
  | nan s => exact absurd (h.trans hd) (datum_not_nan y s)
  | inf s =>
    have hform : y.form = .inf ∧ y.neg = s := by
      rw [hd] at h
      unfold BigFloat.datum at h
      split at h <;> simp_all
    rw [(C12_binary16_float64 x s).2.1 hd, newFromBig_inf hform.1, hform.2]
  | num s m =>
    rw [hd] at h
    by_cases hm : m = 0
    · obtain ⟨h1, h2, -⟩ := BigFloat.datum_inj_form hy h
      rw [hm] at hd
      rw [(C12_binary16_float64 x s).1 hd, newFromBig_zero (h2 hm), h1]
    · obtain ⟨z, r, z1, z2, z3, z4⟩ := C55_binary16_float64 x hd hm
      obtain ⟨k, e, hk, he⟩ := hfit s m hd
      have h8 := z4.2.1 (if s then -k else k) e (by
        split
        · rw [abs_neg]; exact_mod_cast hk
        · exact_mod_cast hk)
      have hk' : ((if s then -k else k : ℤ) : ℚ) * 2 ^ e = signed s m := by
        rw [he]; unfold signed; cases s <;> simp
      rw [hk', sub_self, abs_zero, abs_nonpos_iff, sub_eq_zero] at h8
      have hr : r = m := by
        unfold signed at h8
        cases s <;> simp at h8 <;> exact h8.symm
      rw [z1]
      exact C55_binary16_value y z hy z2 (by rw [h, z3, hr])

-- -11/8 has four bits
example := C74_binary16_big 0xBFF6000000000000 Sample.x Sample.x_wf (Sample.x_datum.trans Sample.x_double.symm) (by
  intro s m h
  rw [Sample.x_double, Datum.num.injEq] at h
  exact ⟨11, -3, by norm_num, by rw [← h.2]; norm_num⟩)

/-- C74: in the normal range and above the two agree only then: if the double has more than 11 significant bits, they differ (in the accuracy reported,
and whenever it is not rounded down also in the number). -/
theorem C74_binary16_big_iff (x : F64) (y : BigFloat) (hy : y.WF) (h : y.datum = double.decode x.toNat) {s : Bool} {m : ℚ}
    (hd : double.decode x.toNat = .num s m) (hm : (2 : ℚ) ^ (-14 : ℤ) ≤ m) :
    newFromBig y = newFromFloat64 x ↔ ∃ k : ℕ, ∃ e : ℤ, k < 2 ^ 11 ∧ m = k * (2 : ℚ) ^ e := by
  constructor
  · intro heq
    have hpos : 0 < m := lt_of_lt_of_le (by positivity) hm
    rw [hd] at h
    obtain ⟨e, h1, h2⟩ : ∃ e : ℤ, (2 : ℚ) ^ (e - 1) ≤ m ∧ m < (2 : ℚ) ^ e := by
      obtain ⟨e, h1, h2⟩ := exists_mem_Ico_zpow hpos (by norm_num : (1 : ℚ) < 2)
      exact ⟨e + 1, by rwa [add_sub_cancel_right], h2⟩
    obtain ⟨f, acc, g1, -, -, g2⟩ := C55_binary16_big y hy h h1 h2
    obtain ⟨f', acc', g3, g4⟩ := C67_binary16_float64 x hd
    have he : -14 < e := by
      by_contra hc
      have : (2 : ℚ) ^ e ≤ (2 : ℚ) ^ (-14 : ℤ) := zpow_le_zpow_right₀ (by norm_num) (by omega)
      linarith
    rw [g1, g3] at heq
    obtain ⟨-, rfl⟩ : f = f' ∧ acc = acc' := by simpa using heq
    have g5 := (g2 he).2
    have hb : acc ≠ .below := by
      rw [g4, if_neg hpos.ne', if_neg (by norm_num at hm ⊢; linarith)]
      split <;> simp
    have hfl : (⌊m * 2 ^ (11 - e)⌋ : ℚ) = m * 2 ^ (11 - e) := by
      by_contra hc
      rw [if_neg hc] at g5
      exact hb g5
    have h0 : 0 ≤ m * (2 : ℚ) ^ (11 - e) := by positivity
    obtain ⟨k, hk⟩ := Int.eq_ofNat_of_zero_le (Int.floor_nonneg.2 h0)
    rw [hk] at hfl
    push_cast at hfl
    refine ⟨k, e - 11, ?_, ?_⟩
    · have : (k : ℚ) < 2 ^ 11 := by
        rw [hfl, show (2 : ℚ) ^ 11 = 2 ^ e * 2 ^ (11 - e) by rw [← zpow_add₀ (by norm_num)]; norm_num]
        gcongr
      exact_mod_cast this
    · rw [hfl, mul_assoc, ← zpow_add₀ (by norm_num)]
      simp
  · rintro ⟨k, e, hk, he⟩
    refine C74_binary16_big x y hy h fun s' m' h' => ?_
    rw [hd] at h'
    obtain ⟨-, rfl⟩ : s = s' ∧ m = m' := by simpa using h'
    exact ⟨k, e, hk, he⟩

example := C74_binary16_big_iff 0xBFF6000000000000 Sample.x Sample.x_wf (Sample.x_datum.trans Sample.x_double.symm) Sample.x_double (by norm_num)

/-- C74: `binary16.NewFromFloat32(x)` is `NewFromFloat64(float64(x))`, for every float32. -/
theorem C74_binary16_float32 (x : F32) : newFromFloat32 x = newFromFloat64 (f32to64 x) := C55_binary16_float32 x

-- 2049/2048 has 12 significant bits: the two differ; 1 + 2^-10 has 11
example : newFromFloat64 0x3FF0010000000000 = .ok (⟨0x3C00⟩, .exact) ∧ (do newFromBig (← newFloat 0x3FF0010000000000)) = .ok (⟨0x3C00⟩, .below) := by
  decide +kernel
example : newFromFloat64 0x3FF0030000000000 = .ok (⟨0x3C01⟩, .exact) ∧ (do newFromBig (← newFloat 0x3FF0030000000000)) = .ok (⟨0x3C00⟩, .below) := by
  decide +kernel
example : newFromFloat64 0x3FF0040000000000 = .ok (⟨0x3C01⟩, .exact) ∧ (do newFromBig (← newFloat 0x3FF0040000000000)) = .ok (⟨0x3C01⟩, .exact) := by
  decide +kernel
end Binary16

-- the hypotheses are met by the big.Float of every float that is not a NaN, and by those of other precisions
example (x : F64) (h : F64.isNaN x = false) : ∃ y, newFloat x = .ok y ∧ y.WF ∧ y.datum = double.decode x.toNat := by
  obtain ⟨y, h1, h2, h3, -⟩ := newFloat_spec x h
  exact ⟨y, h1, h3, h2⟩
end GoFloat
