import Verif.Proofs.Sample
import Verif.Proofs.Monotone
import Verif.Props.Complete
/-
Conversions are monotone (C57 of properties.jsonl).
-/
namespace GoFloat
open Spec

/-- Numbers of a format are not negative. -/
theorem decode_nonneg {F : Format} {c : ℕ} {s : Bool} {m : ℚ} (h : F.decode c = .num s m) : 0 ≤ m := by
  obtain ⟨n, -, rfl, -, -⟩ := F.code_of_decode h
  exact F.magc_nonneg n

/-- Correct conversions to float64 of ordered data are ordered. -/
theorem converts64_mono {a b : Datum} {r r' : F64} {acc acc' : Accuracy} (h : Datum.Le a b) (ha : ∀ s m, a = .num s m → 0 ≤ m)
    (hb : ∀ s m, b = .num s m → 0 ≤ m) (c : Converts64 a r acc) (c' : Converts64 b r' acc') :
    Datum.Le (double.decode r.toNat) (double.decode r'.toNat) := by
  have hna := Datum.Le.left h
  have hnb := Datum.Le.right h
  cases a with
  | nan s => exact absurd rfl (hna s)
  | inf s =>
    cases b with
    | nan s => exact absurd rfl (hnb s)
    | inf s' => rw [c.1, c'.1]; exact h
    | num s' m' =>
      cases s
      · exact absurd h not_inf_le
      · rw [c.1]; exact negInf_le (roundsTo_not_nan c'.1)
  | num s m =>
    cases b with
    | nan s => exact absurd rfl (hnb s)
    | inf s' =>
      cases s'
      · rw [c'.1]; exact le_inf (roundsTo_not_nan c.1)
      · exact absurd h not_le_negInf
    | num s' m' => exact roundsTo_mono (by decide) (ha _ _ rfl) (hb _ _ rfl) c.1 c'.1 (le_num.1 h)

/-- The same for float32. -/
theorem converts32_mono {a b : Datum} {r r' : F32} {acc acc' : Accuracy} (h : Datum.Le a b) (ha : ∀ s m, a = .num s m → 0 ≤ m)
    (hb : ∀ s m, b = .num s m → 0 ≤ m) (c : Converts32 a r acc) (c' : Converts32 b r' acc') :
    Datum.Le (single.decode r.toNat) (single.decode r'.toNat) := by
  have hna := Datum.Le.left h
  have hnb := Datum.Le.right h
  cases a with
  | nan s => exact absurd rfl (hna s)
  | inf s =>
    cases b with
    | nan s => exact absurd rfl (hnb s)
    | inf s' => rw [c.1, c'.1]; exact h
    | num s' m' =>
      cases s
      · exact absurd h not_inf_le
      · rw [c.1]; exact negInf_le (roundsTo_not_nan c'.1)
  | num s m =>
    cases b with
    | nan s => exact absurd rfl (hnb s)
    | inf s' =>
      cases s'
      · rw [c'.1]; exact le_inf (roundsTo_not_nan c.1)
      · exact absurd h not_le_negInf
    | num s' m' => exact roundsTo_mono (by decide) (ha _ _ rfl) (hb _ _ rfl) c.1 c'.1 (le_num.1 h)

/-- C57: `binary128.Float64` is monotone on the extended number line. -/
theorem C57_binary128_float64 (f g : Binary128.Float) (h : Datum.Le (quad.decode f.code) (quad.decode g.code)) :
    ∃ r acc r' acc', f.float64 = .ok (r, acc) ∧ g.float64 = .ok (r', acc') ∧ Datum.Le (double.decode r.toNat) (double.decode r'.toNat) := by
  obtain ⟨r, acc, h1, h2⟩ := Binary128.C17_binary128_float64 f
  obtain ⟨r', acc', h1', h2'⟩ := Binary128.C17_binary128_float64 g
  exact ⟨r, acc, r', acc', h1, h1', converts64_mono h (fun _ _ => decode_nonneg) (fun _ _ => decode_nonneg) h2 h2'⟩

/-- -Inf in binary128 -/
theorem inf_quad : quad.decode (Binary128.Float.code ⟨0xFFFF000000000000, 0⟩) = .inf true := by
  rw [show Binary128.Float.code ⟨0xFFFF000000000000, 0⟩ = 0xFFFF0000000000000000000000000000 by decide +kernel]
  norm_num [quad, Format.decode, Format.bias]

-- -Inf and -11/8
example := C57_binary128_float64 ⟨0xFFFF000000000000, 0⟩ ⟨0xBFFF600000000000, 0⟩ (by rw [inf_quad, Sample.x_quad]; exact Sample.inf_le_x)

/-- C57: `binary128.Float32` is monotone. -/
theorem C57_binary128_float32 (f g : Binary128.Float) (h : Datum.Le (quad.decode f.code) (quad.decode g.code)) :
    ∃ r acc r' acc', f.float32 = .ok (r, acc) ∧ g.float32 = .ok (r', acc') ∧ Datum.Le (single.decode r.toNat) (single.decode r'.toNat) := by
  obtain ⟨r, acc, h1, h2⟩ := Binary128.C17_binary128_float32 f
  obtain ⟨r', acc', h1', h2'⟩ := Binary128.C17_binary128_float32 g
  exact ⟨r, acc, r', acc', h1, h1', converts32_mono h (fun _ _ => decode_nonneg) (fun _ _ => decode_nonneg) h2 h2'⟩

example := C57_binary128_float32 ⟨0xFFFF000000000000, 0⟩ ⟨0xBFFF600000000000, 0⟩ (by rw [inf_quad, Sample.x_quad]; exact Sample.inf_le_x)

theorem val_nonneg {f : Float80x86.Float} {s : Bool} {m : ℚ} (h : f.val = .num s m) : 0 ≤ m := by
  obtain ⟨c, -, hc⟩ := Float80x86.exists_canonical f (by rw [h]; simp)
  exact decode_nonneg (hc.trans h)

/-- C57: `float80x86.Float64` is monotone, on canonical and other encodings. -/
theorem C57_float80x86_float64 (f g : Float80x86.Float) (h : Datum.Le f.val g.val) :
    ∃ r acc r' acc', f.float64 = .ok (r, acc) ∧ g.float64 = .ok (r', acc') ∧ Datum.Le (double.decode r.toNat) (double.decode r'.toNat) := by
  obtain ⟨r, acc, h1, h2⟩ := Float80x86.C23_float80x86_float64 f
  obtain ⟨r', acc', h1', h2'⟩ := Float80x86.C23_float80x86_float64 g
  exact ⟨r, acc, r', acc', h1, h1', converts64_mono h (fun _ _ => val_nonneg) (fun _ _ => val_nonneg) h2 h2'⟩

/-- -Inf in float80x86 -/
theorem inf_val : Float80x86.Float.val ⟨0xFFFF, 0x8000000000000000⟩ = .inf true := by
  show decode80 0xFFFF 0x8000000000000000 = _
  norm_num [decode80]

example := C57_float80x86_float64 ⟨0xFFFF, 0x8000000000000000⟩ ⟨0xBFFF, 0xB000000000000000⟩ (by rw [inf_val, Sample.x_val]; exact Sample.inf_le_x)

/-- C57: `float80x86.Float32` is monotone. -/
theorem C57_float80x86_float32 (f g : Float80x86.Float) (h : Datum.Le f.val g.val) :
    ∃ r acc r' acc', f.float32 = .ok (r, acc) ∧ g.float32 = .ok (r', acc') ∧ Datum.Le (single.decode r.toNat) (single.decode r'.toNat) := by
  obtain ⟨r, acc, h1, h2⟩ := Float80x86.C23_float80x86_float32 f
  obtain ⟨r', acc', h1', h2'⟩ := Float80x86.C23_float80x86_float32 g
  exact ⟨r, acc, r', acc', h1, h1', converts32_mono h (fun _ _ => val_nonneg) (fun _ _ => val_nonneg) h2 h2'⟩

example := C57_float80x86_float32 ⟨0xFFFF, 0x8000000000000000⟩ ⟨0xBFFF, 0xB000000000000000⟩ (by rw [inf_val, Sample.x_val]; exact Sample.inf_le_x)

/-- A number is zero or between the smallest subnormal and the power of two above the largest finite number. -/
def InRange (lo hi : ℤ) (m : ℚ) : Prop := m = 0 ∨ (2 : ℚ) ^ lo ≤ m ∧ m < (2 : ℚ) ^ hi

theorem InRange.nonneg {lo hi : ℤ} {m : ℚ} (h : InRange lo hi m) : 0 ≤ m := by
  rcases h with h | h
  · rw [h]
  · exact le_trans (by positivity) h.1

/-- C57: `binary128.NewFromFloat64` is monotone, on every pair of doubles that are not NaNs. -/
theorem C57_binary128_newFromFloat64 (x y : F64) (h : Datum.Le (double.decode x.toNat) (double.decode y.toNat)) :
    ∃ f acc g acc', Binary128.newFromFloat64 x = .ok (f, acc) ∧ Binary128.newFromFloat64 y = .ok (g, acc') ∧
      Datum.Le (quad.decode f.code) (quad.decode g.code) := by
  obtain ⟨f, h1, h2, -⟩ := Binary128.C16_binary128_float64 x (Datum.Le.left h)
  obtain ⟨g, h1', h2', -⟩ := Binary128.C16_binary128_float64 y (Datum.Le.right h)
  exact ⟨f, _, g, _, h1, h1', by rwa [h2, h2']⟩

-- -Inf and -11/8
example := C57_binary128_newFromFloat64 0xFFF0000000000000 0xBFF6000000000000 (by rw [Sample.inf_double, Sample.x_double]; exact Sample.inf_le_x)

/-- C57: `binary128.NewFromFloat32` is monotone. -/
theorem C57_binary128_newFromFloat32 (x y : F32) (h : Datum.Le (single.decode x.toNat) (single.decode y.toNat)) :
    ∃ f acc g acc', Binary128.newFromFloat32 x = .ok (f, acc) ∧ Binary128.newFromFloat32 y = .ok (g, acc') ∧
      Datum.Le (quad.decode f.code) (quad.decode g.code) := by
  obtain ⟨f, h1, h2, -⟩ := Binary128.C16_binary128_float32 x (Datum.Le.left h)
  obtain ⟨g, h1', h2', -⟩ := Binary128.C16_binary128_float32 y (Datum.Le.right h)
  exact ⟨f, _, g, _, h1, h1', by rwa [h2, h2']⟩

example := C57_binary128_newFromFloat32 0xFF800000 0xBFB00000 (by rw [Sample.inf_single, Sample.x_single]; exact Sample.inf_le_x)

/-- C57: `float80x86.NewFromFloat64` is monotone. -/
theorem C57_float80x86_newFromFloat64 (x y : F64) (h : Datum.Le (double.decode x.toNat) (double.decode y.toNat)) :
    ∃ f acc g acc', Float80x86.newFromFloat64 x = .ok (f, acc) ∧ Float80x86.newFromFloat64 y = .ok (g, acc') ∧ Datum.Le f.val g.val := by
  obtain ⟨f, h1, -, h2, -⟩ := Float80x86.C22_float80x86_float64 x (Datum.Le.left h)
  obtain ⟨g, h1', -, h2', -⟩ := Float80x86.C22_float80x86_float64 y (Datum.Le.right h)
  exact ⟨f, _, g, _, h1, h1', by rwa [h2, h2']⟩

example := C57_float80x86_newFromFloat64 0xFFF0000000000000 0xBFF6000000000000 (by rw [Sample.inf_double, Sample.x_double]; exact Sample.inf_le_x)

/-- C57: `float80x86.NewFromFloat32` is monotone. -/
theorem C57_float80x86_newFromFloat32 (x y : F32) (h : Datum.Le (single.decode x.toNat) (single.decode y.toNat)) :
    ∃ f acc g acc', Float80x86.newFromFloat32 x = .ok (f, acc) ∧ Float80x86.newFromFloat32 y = .ok (g, acc') ∧ Datum.Le f.val g.val := by
  obtain ⟨f, h1, -, h2, -⟩ := Float80x86.C22_float80x86_float32 x (Datum.Le.left h)
  obtain ⟨g, h1', -, h2', -⟩ := Float80x86.C22_float80x86_float32 y (Datum.Le.right h)
  exact ⟨f, _, g, _, h1, h1', by rwa [h2, h2']⟩

-- The hypothesis is met by -Inf and the smallest denormal.
example : Datum.Le (double.decode (0xFFF0000000000000 : F64).toNat) (double.decode (1 : F64).toNat) := by
  have h : double.decode (0xFFF0000000000000 : F64).toNat = .inf true := by simp [Format.decode, double]
  rw [h]
  exact negInf_le fun s h => by simp [Format.decode, double] at h

/-- C57, full statement for the three constructors (false, see below). -/
def C57_full : Prop :=
  (∀ x y : BigFloat, x.WF → y.WF → Datum.Le x.datum y.datum → ∃ f acc g acc', Binary16.newFromBig x = .ok (f, acc) ∧
    Binary16.newFromBig y = .ok (g, acc') ∧ Datum.Le (half.decode f.bits.toNat) (half.decode g.bits.toNat)) ∧
  (∀ x y : BigFloat, x.WF → y.WF → Datum.Le x.datum y.datum → ∃ f acc g acc', Binary128.newFromBig x = .ok (f, acc) ∧
    Binary128.newFromBig y = .ok (g, acc') ∧ Datum.Le (quad.decode f.code) (quad.decode g.code)) ∧
  (∀ x y : BigFloat, x.WF → y.WF → Datum.Le x.datum y.datum → ∃ f acc g acc', Float80x86.newFromBig x = .ok (f, acc) ∧
    Float80x86.newFromBig y = .ok (g, acc') ∧ Datum.Le f.val g.val)

/-- 2^(e-1) as a `big.Float`. -/
def bigPow (e : ℤ) : BigFloat := ⟨53, .toNearestEven, .exact, .finite, false, 1, e⟩

theorem bigPow_wf {e : ℤ} (h1 : -100000 ≤ e) (h2 : e ≤ 100000) : (bigPow e).WF :=
  ⟨show 53 ≤ BigFloat.MaxPrec by decide, fun _ => Nat.one_pos, fun _ => by show BigFloat.MinExp ≤ e; unfold BigFloat.MinExp; omega,
    fun _ => by show e ≤ BigFloat.MaxExp; unfold BigFloat.MaxExp; omega, fun _ => show 1 ≤ 53 by decide,
    fun _ => ⟨1, 0, rfl, show 1 < 2 ^ 53 by decide⟩⟩

theorem bigPow_datum (e : ℤ) : (bigPow e).datum = .num false ((2 : ℚ) ^ (e - 1)) := by
  rw [BigFloat.datum_lit 1 rfl (by rfl)]
  show Datum.num false _ = _
  congr 1
  show (((1 : ℕ) : ℚ)) / 2 ^ 1 * (2 : ℚ) ^ e = _
  rw [zpow_sub₀ (by norm_num)]
  norm_num
  ring

/-- C57 is false for binary16: 1 stays 1, but 2^18 becomes 2^-14. -/
theorem C57_false_binary16 : Datum.Le (bigPow 1).datum (bigPow 19).datum ∧ ¬ ∃ f acc g acc', Binary16.newFromBig (bigPow 1) = .ok (f, acc) ∧
    Binary16.newFromBig (bigPow 19) = .ok (g, acc') ∧ Datum.Le (half.decode f.bits.toNat) (half.decode g.bits.toNat) := by
  refine ⟨by rw [bigPow_datum, bigPow_datum, le_num]; norm_num [signed], ?_⟩
  rintro ⟨f, acc, g, acc', h1, h2, h3⟩
  rw [show Binary16.newFromBig (bigPow 1) = .ok (⟨0x3C00⟩, .exact) by decide +kernel] at h1
  rw [show Binary16.newFromBig (bigPow 19) = .ok (⟨0x0400⟩, .above) by decide +kernel] at h2
  simp only [Except.ok.injEq, Prod.mk.injEq] at h1 h2
  rw [← h1.1, ← h2.1] at h3
  have e1 : half.decode 0x3C00 = .num false 1 := by simp [Format.decode, half, Format.bias]
  have e2 : half.decode 0x0400 = .num false ((2 : ℚ) ^ (-14 : ℤ)) := by simp [Format.decode, half, Format.bias]
  rw [show (0x3C00 : BitVec 16).toNat = 0x3C00 from rfl, show (0x0400 : BitVec 16).toNat = 0x0400 from rfl, e1, e2, le_num] at h3
  norm_num [signed] at h3

theorem two_pow_lt_one : (2 : ℚ) ^ (-16382 : ℤ) < 1 := zpow_lt_one_of_neg₀ (by norm_num) (by norm_num)

theorem bigPow_le : Datum.Le (bigPow 1).datum (bigPow 16387).datum := by
  rw [bigPow_datum, bigPow_datum, le_num]
  show (2 : ℚ) ^ ((1 : ℤ) - 1) ≤ 2 ^ ((16387 : ℤ) - 1)
  exact zpow_le_zpow_right₀ (by norm_num) (by norm_num)

/-- C57 is false for binary128: 1 stays 1, but 2^16386 becomes 2^-16382. -/
theorem C57_false_binary128 : Datum.Le (bigPow 1).datum (bigPow 16387).datum ∧ ¬ ∃ f acc g acc',
    Binary128.newFromBig (bigPow 1) = .ok (f, acc) ∧ Binary128.newFromBig (bigPow 16387) = .ok (g, acc') ∧
      Datum.Le (quad.decode f.code) (quad.decode g.code) := by
  refine ⟨bigPow_le, ?_⟩
  rintro ⟨f, acc, g, acc', h1, h2, h3⟩
  rw [show Binary128.newFromBig (bigPow 1) = .ok (⟨0x3FFF000000000000, 0⟩, .exact) by decide +kernel] at h1
  rw [show Binary128.newFromBig (bigPow 16387) = .ok (⟨0x0001000000000000, 0⟩, .above) by decide +kernel] at h2
  simp only [Except.ok.injEq, Prod.mk.injEq] at h1 h2
  rw [← h1.1, ← h2.1, show (⟨0x3FFF000000000000, 0⟩ : Binary128.Float).code = 0x3FFF0000000000000000000000000000 by decide +kernel,
    show (⟨0x0001000000000000, 0⟩ : Binary128.Float).code = 0x00010000000000000000000000000000 by decide +kernel] at h3
  have e1 : quad.decode 0x3FFF0000000000000000000000000000 = .num false 1 := by simp [Format.decode, quad, Format.bias]
  have e2 : quad.decode 0x00010000000000000000000000000000 = .num false ((2 : ℚ) ^ (-16382 : ℤ)) := by
    simp [Format.decode, quad, Format.bias]
  rw [e1, e2, le_num] at h3
  exact absurd h3 (not_le.2 two_pow_lt_one)

/-- C57 is false for float80x86: 1 stays 1, but 2^16386 becomes 2^-16382. -/
theorem C57_false_float80x86 : Datum.Le (bigPow 1).datum (bigPow 16387).datum ∧ ¬ ∃ f acc g acc',
    Float80x86.newFromBig (bigPow 1) = .ok (f, acc) ∧ Float80x86.newFromBig (bigPow 16387) = .ok (g, acc') ∧ Datum.Le f.val g.val := by
  refine ⟨bigPow_le, ?_⟩
  rintro ⟨f, acc, g, acc', h1, h2, h3⟩
  rw [show Float80x86.newFromBig (bigPow 1) = .ok (⟨0x3FFF, 0x8000000000000000⟩, .exact) by decide +kernel] at h1
  rw [show Float80x86.newFromBig (bigPow 16387) = .ok (⟨0x0001, 0x8000000000000000⟩, .above) by decide +kernel] at h2
  simp only [Except.ok.injEq, Prod.mk.injEq] at h1 h2
  have e1 : (⟨0x3FFF, 0x8000000000000000⟩ : Float80x86.Float).val = .num false (2 ^ 63 * (2 : ℚ) ^ (-63 : ℤ)) := by
    simp [Float80x86.Float.val, decode80]; norm_num
  have e2 : (⟨0x0001, 0x8000000000000000⟩ : Float80x86.Float).val = .num false (2 ^ 63 * (2 : ℚ) ^ (-16445 : ℤ)) := by
    simp [Float80x86.Float.val, decode80]; norm_num
  rw [← h1.1, ← h2.1, e1, e2, le_num] at h3
  have h4 : (2 : ℚ) ^ (-16445 : ℤ) < 2 ^ (-63 : ℤ) := zpow_lt_zpow_right₀ (by norm_num) (by norm_num)
  simp only [signed, Bool.false_eq_true, if_false] at h3
  generalize (2 : ℚ) ^ (-16445 : ℤ) = P at *
  generalize (2 : ℚ) ^ (-63 : ℤ) = Q at *
  linarith

theorem C57_false : ¬ C57_full := fun h =>
  C57_false_binary16.2 (h.1 _ _ (bigPow_wf (by norm_num) (by norm_num)) (bigPow_wf (by norm_num) (by norm_num)) C57_false_binary16.1)

/-- Rounding toward zero is monotone, for the value `D f` of the result and the set `R` of magnitudes of the target. -/
theorem trunc_mono {R : ℚ → Prop} {s s' : Bool} {m m' r r' : ℚ} (hm : 0 ≤ m) (hm' : 0 ≤ m')
    (a1 : R r) (a2 : 0 ≤ r) (a3 : r ≤ m) (a4 : ∀ q, R q → q ≤ m → q ≤ r) (b1 : R r') (b2 : 0 ≤ r') (b3 : r' ≤ m')
    (b4 : ∀ q, R q → q ≤ m' → q ≤ r') (h : signed s m ≤ signed s' m') : Datum.Le (.num s r) (.num s' r') := by
  rw [le_num]
  exact signed_mono hm hm' a2 b2 h (fun h => b4 _ a1 (a3.trans h)) (fun h => a4 _ b1 (b3.trans h))
    (fun h => le_antisymm (h ▸ a3) a2) (fun h => le_antisymm (h ▸ b3) b2)

/-- An infinity, or a number that is zero or in range. -/
def Good (lo hi : ℤ) (d : Datum) : Prop := (∃ s, d = .inf s) ∨ ∃ s m, d = .num s m ∧ InRange lo hi m

/-- From what a constructor does with infinities and numbers in range to its monotonicity. -/
theorem mono_of {R : ℚ → Prop} {lo hi : ℤ} {T : Type} {conv : BigFloat → Go (T × Accuracy)} {D : T → Datum} {x y : BigFloat}
    (gx : Good lo hi x.datum) (gy : Good lo hi y.datum) (hle : Datum.Le x.datum y.datum)
    (hinf : ∀ z : BigFloat, z = x ∨ z = y → ∀ s, z.datum = .inf s → ∃ f acc, conv z = .ok (f, acc) ∧ D f = .inf s)
    (hnum : ∀ z : BigFloat, z = x ∨ z = y → ∀ s m, z.datum = .num s m → InRange lo hi m → ∃ f acc r, conv z = .ok (f, acc) ∧
      D f = .num s r ∧ R r ∧ 0 ≤ r ∧ r ≤ m ∧ ∀ q, R q → q ≤ m → q ≤ r) :
    ∃ f acc g acc', conv x = .ok (f, acc) ∧ conv y = .ok (g, acc') ∧ Datum.Le (D f) (D g) := by
  rcases gx with ⟨s, dx⟩ | ⟨s, m, dx, rx⟩ <;> rcases gy with ⟨s', dy⟩ | ⟨s', m', dy, ry⟩ <;> rw [dx, dy] at hle
  · obtain ⟨f, acc, h1, h2⟩ := hinf x (Or.inl rfl) s dx
    obtain ⟨g, acc', h1', h2'⟩ := hinf y (Or.inr rfl) s' dy
    exact ⟨f, acc, g, acc', h1, h1', by rw [h2, h2']; exact hle⟩
  · obtain ⟨f, acc, h1, h2⟩ := hinf x (Or.inl rfl) s dx
    obtain ⟨g, acc', r, h1', h2', -⟩ := hnum y (Or.inr rfl) s' m' dy ry
    refine ⟨f, acc, g, acc', h1, h1', ?_⟩
    rw [h2, h2']
    cases s
    · exact absurd hle not_inf_le
    · exact negInf_le (by simp)
  · obtain ⟨f, acc, r, h1, h2, -⟩ := hnum x (Or.inl rfl) s m dx rx
    obtain ⟨g, acc', h1', h2'⟩ := hinf y (Or.inr rfl) s' dy
    refine ⟨f, acc, g, acc', h1, h1', ?_⟩
    rw [h2, h2']
    cases s'
    · exact le_inf (by simp)
    · exact absurd hle not_le_negInf
  · obtain ⟨f, acc, r, h1, h2, h3, h4, h5, h6⟩ := hnum x (Or.inl rfl) s m dx rx
    obtain ⟨g, acc', r', h1', h2', h3', h4', h5', h6'⟩ := hnum y (Or.inr rfl) s' m' dy ry
    refine ⟨f, acc, g, acc', h1, h1', ?_⟩
    rw [h2, h2']
    exact trunc_mono rx.nonneg ry.nonneg h3 h4 h5 h6 h3' h4' h5' h6' (le_num.1 hle)

/-- C57, the part that holds for `binary16.NewFromBig`: it is monotone on infinities, zeros and the magnitudes in `[2^-24, 2^16)`.
Missing, because false: overflow and underflow. -/
theorem C57_binary16_big_partial (x y : BigFloat) (hx : x.WF) (hy : y.WF) (gx : Good (-24) 16 x.datum) (gy : Good (-24) 16 y.datum)
    (hle : Datum.Le x.datum y.datum) :
    ∃ f acc g acc', Binary16.newFromBig x = .ok (f, acc) ∧ Binary16.newFromBig y = .ok (g, acc') ∧
      Datum.Le (half.decode f.bits.toNat) (half.decode g.bits.toNat) := by
  have hwf : ∀ z : BigFloat, z = x ∨ z = y → z.WF := by rintro z (rfl | rfl) <;> assumption
  refine mono_of (R := fun q => ∃ c s, half.decode c = .num s q) (D := fun f : Binary16.Float => half.decode f.bits.toNat)
    gx gy hle ?_ ?_
  · intro z hz s hd
    obtain ⟨hs, hf⟩ := BigFloat.datum_inf hd
    refine ⟨_, _, Binary16.newFromBig_inf hf, ?_⟩
    rw [hs]
    cases s
    · show half.decode 0x7C00 = _
      simp [Format.decode, half]
    · show half.decode 0xFC00 = _
      simp [Format.decode, half]
  · rintro z hz s m hd (rfl | ⟨h1, h2⟩)
    · obtain ⟨hs, hf, -⟩ := BigFloat.datum_inj_form (hwf z hz) hd
      have hz0 : half.decode (if z.neg then Binary16.NegZero else Binary16.Zero).bits.toNat = .num s 0 := by
        rw [hs]
        cases s
        · show half.decode 0 = _
          simp [Format.decode, half]
        · show half.decode 0x8000 = _
          simp [Format.decode, half]
      exact ⟨_, _, 0, Binary16.newFromBig_zero (hf rfl), hz0, ⟨_, s, hz0⟩, le_rfl, le_rfl, fun q _ h => h⟩
    · obtain ⟨f, acc, r, e1, e2, e3, e4, -⟩ := Binary16.C08_partial z (hwf z hz) hd h1 h2
      exact ⟨f, acc, r, e1, e2, ⟨_, s, e2⟩, decode_nonneg e2, e3, fun q ⟨c, t, hq⟩ h => e4 c t q hq h⟩

-- -11/8 and 1 + 2^-199
example := C57_binary16_big_partial Sample.x Sample.y Sample.x_wf Sample.y_wf (.inr ⟨_, _, Sample.x_datum, .inr ⟨Sample.le_one (by norm_num) (by norm_num), Sample.lt_two (by norm_num) (by norm_num)⟩⟩) (.inr ⟨_, _, Sample.y_datum, .inr ⟨Sample.le_one (by norm_num) (by norm_num), Sample.lt_two (by norm_num) (by norm_num)⟩⟩) (by rw [Sample.x_datum, Sample.y_datum]; exact Sample.x_le_y)

theorem Binary128.special_decode (s : Bool) : quad.decode (if s then Binary128.NegZero else Binary128.Zero).code = .num s 0 ∧
    quad.decode (if s then Binary128.NegInf else Binary128.Inf).code = .inf s := by
  obtain ⟨-, -, h1, h2, h3, h4⟩ := Binary128.C12_binary128_constants
  cases s
  · exact ⟨h3, h1⟩
  · exact ⟨h4, h2⟩

/-- C57, the part that holds for `binary128.NewFromBig`: magnitudes in `[2^-16494, 2^16384)`. -/
theorem C57_binary128_big_partial (x y : BigFloat) (hx : x.WF) (hy : y.WF) (gx : Good (-16494) 16384 x.datum)
    (gy : Good (-16494) 16384 y.datum) (hle : Datum.Le x.datum y.datum) :
    ∃ f acc g acc', Binary128.newFromBig x = .ok (f, acc) ∧ Binary128.newFromBig y = .ok (g, acc') ∧
      Datum.Le (quad.decode f.code) (quad.decode g.code) := by
  have hwf : ∀ z : BigFloat, z = x ∨ z = y → z.WF := by rintro z (rfl | rfl) <;> assumption
  refine mono_of (R := fun q => ∃ c s, quad.decode c = .num s q) (D := fun f : Binary128.Float => quad.decode f.code)
    gx gy hle ?_ ?_
  · intro z hz s hd
    obtain ⟨hs, hf⟩ := BigFloat.datum_inf hd
    refine ⟨_, _, Binary128.newFromBig_inf hf, ?_⟩
    rw [hs]
    exact (Binary128.special_decode s).2
  · rintro z hz s m hd (rfl | ⟨h1, h2⟩)
    · obtain ⟨hs, hf, -⟩ := BigFloat.datum_inj_form (hwf z hz) hd
      have hz0 : quad.decode (if z.neg then Binary128.NegZero else Binary128.Zero).code = .num s 0 := by
        rw [hs]; exact (Binary128.special_decode s).1
      exact ⟨_, _, 0, Binary128.newFromBig_zero (hf rfl), hz0, ⟨_, s, hz0⟩, le_rfl, le_rfl, fun q _ h => h⟩
    · obtain ⟨f, acc, r, e1, e2, e3, e4, -⟩ := Binary128.C18_partial z (hwf z hz) hd h1 h2
      exact ⟨f, acc, r, e1, e2, ⟨_, s, e2⟩, decode_nonneg e2, e3, fun q ⟨c, t, hq⟩ h => e4 c t q hq h⟩

-- -11/8 and 1 + 2^-199
example := C57_binary128_big_partial Sample.x Sample.y Sample.x_wf Sample.y_wf (.inr ⟨_, _, Sample.x_datum, .inr ⟨Sample.le_one (by norm_num) (by norm_num), Sample.lt_two (by norm_num) (by norm_num)⟩⟩) (.inr ⟨_, _, Sample.y_datum, .inr ⟨Sample.le_one (by norm_num) (by norm_num), Sample.lt_two (by norm_num) (by norm_num)⟩⟩) (by rw [Sample.x_datum, Sample.y_datum]; exact Sample.x_le_y)

/-- C57, the part that holds for `float80x86.NewFromBig`: magnitudes in `[2^-16445, 2^16384)`. -/
theorem C57_float80x86_big_partial (x y : BigFloat) (hx : x.WF) (hy : y.WF) (gx : Good (-16445) 16384 x.datum)
    (gy : Good (-16445) 16384 y.datum) (hle : Datum.Le x.datum y.datum) :
    ∃ f acc g acc', Float80x86.newFromBig x = .ok (f, acc) ∧ Float80x86.newFromBig y = .ok (g, acc') ∧ Datum.Le f.val g.val := by
  have hwf : ∀ z : BigFloat, z = x ∨ z = y → z.WF := by rintro z (rfl | rfl) <;> assumption
  refine mono_of (R := fun q => ∃ (g : Float80x86.Float) (s : Bool), g.val = .num s q) (D := fun f : Float80x86.Float => f.val)
    gx gy hle ?_ ?_
  · intro z hz s hd
    obtain ⟨hs, hf⟩ := BigFloat.datum_inf hd
    refine ⟨_, _, Float80x86.newFromBig_inf hf, ?_⟩
    rw [hs]
    exact (Float80x86.special_val s).2
  · rintro z hz s m hd (rfl | ⟨h1, h2⟩)
    · obtain ⟨hs, hf, -⟩ := BigFloat.datum_inj_form (hwf z hz) hd
      have hz0 : (if z.neg then Float80x86.NegZero else Float80x86.Zero).val = .num s 0 := by
        rw [hs]; exact (Float80x86.special_val s).1
      exact ⟨_, _, 0, Float80x86.newFromBig_zero (hf rfl), hz0, ⟨_, s, hz0⟩, le_rfl, le_rfl, fun q _ h => h⟩
    · obtain ⟨f, acc, r, e1, -, e2, e3, e4, -⟩ := Float80x86.C24_partial z (hwf z hz) hd h1 h2
      exact ⟨f, acc, r, e1, e2, ⟨_, s, e2⟩, val_nonneg e2, e3, fun q ⟨c, t, hq⟩ h => e4 c t q hq h⟩

-- -11/8 and 1 + 2^-199
example := C57_float80x86_big_partial Sample.x Sample.y Sample.x_wf Sample.y_wf (.inr ⟨_, _, Sample.x_datum, .inr ⟨Sample.le_one (by norm_num) (by norm_num), Sample.lt_two (by norm_num) (by norm_num)⟩⟩) (.inr ⟨_, _, Sample.y_datum, .inr ⟨Sample.le_one (by norm_num) (by norm_num), Sample.lt_two (by norm_num) (by norm_num)⟩⟩) (by rw [Sample.x_datum, Sample.y_datum]; exact Sample.x_le_y)

namespace Binary16

/-- What becomes of a number of magnitude at most 2^16 in `NewFromBig`: truncation, and the infinity for 2^16. -/
def Out (d : Datum) (s : Bool) (r : ℚ) : Prop :=
  (r < 2 ^ (16 : ℤ) ∧ ∃ q, d = .num s q ∧ (∃ c t, half.decode c = .num t q) ∧ 0 ≤ q ∧ q ≤ r ∧
    ∀ q', (∃ c t, half.decode c = .num t q') → q' ≤ r → q' ≤ q) ∨ r = 2 ^ (16 : ℤ) ∧ d = .inf s

theorem out_mono {d d' : Datum} {s s' : Bool} {r r' : ℚ} (hr : 0 ≤ r) (hr' : 0 ≤ r') (h : Out d s r) (h' : Out d' s' r')
    (hle : signed s r ≤ signed s' r') : Datum.Le d d' := by
  have hP : (0 : ℚ) < 2 ^ (16 : ℤ) := by positivity
  rcases h with ⟨h1, q, h2, h3, h4, h5, h6⟩ | ⟨h1, h2⟩ <;> rcases h' with ⟨h1', q', h2', h3', h4', h5', h6'⟩ | ⟨h1', h2'⟩
  · rw [h2, h2']
    exact trunc_mono (R := fun q => ∃ c t, half.decode c = .num t q) hr hr' h3 h4 h5 h6 h3' h4' h5' h6' hle
  · rw [h2, h2']
    cases s'
    · exact le_inf (by simp)
    · exfalso
      rw [h1'] at hle
      generalize (2 : ℚ) ^ (16 : ℤ) = P at *
      cases s <;> simp [signed] at hle <;> linarith
  · rw [h2, h2']
    cases s
    · exfalso
      rw [h1] at hle
      generalize (2 : ℚ) ^ (16 : ℤ) = P at *
      cases s' <;> simp [signed] at hle <;> linarith
    · exact negInf_le (by simp)
  · rw [h2, h2']
    cases s
    · cases s'
      · exact le_inf (by simp)
      · exfalso
        rw [h1, h1'] at hle
        generalize (2 : ℚ) ^ (16 : ℤ) = P at *
        simp [signed] at hle; linarith
    · exact negInf_le (by simp)

theorem out_big {z : BigFloat} (hz : z.WF) {s : Bool} {r : ℚ} (hd : z.datum = .num s r)
    (h : r = 0 ∨ (2 : ℚ) ^ (-24 : ℤ) ≤ r ∧ r ≤ 2 ^ (16 : ℤ)) :
    ∃ f acc, newFromBig z = .ok (f, acc) ∧ Out (half.decode f.bits.toNat) s r := by
  rcases h with rfl | ⟨h1, h2⟩
  · obtain ⟨hs, hf, -⟩ := BigFloat.datum_inj_form hz hd
    have hz0 : half.decode (if z.neg then NegZero else Zero).bits.toNat = .num s 0 := by
      rw [hs]
      cases s
      · show half.decode 0 = _
        simp [Format.decode, half]
      · show half.decode 0x8000 = _
        simp [Format.decode, half]
    exact ⟨_, _, newFromBig_zero (hf rfl), Or.inl ⟨by positivity, 0, hz0, ⟨_, s, hz0⟩, le_rfl, le_rfl, fun q _ h => h⟩⟩
  · rcases h2.lt_or_eq with h2 | h2
    · obtain ⟨f, acc, q, e1, e2, e3, e4, -⟩ := C08_partial z hz hd h1 h2
      exact ⟨f, acc, e1, Or.inl ⟨h2, q, e2, ⟨_, s, e2⟩, decode_nonneg e2, e3, fun q' ⟨c, t, hq⟩ h => e4 c t q' hq h⟩⟩
    · obtain ⟨f, acc, e1, -, -, e2⟩ := C55_binary16_big z hz (e := 17) hd (by rw [h2]; norm_num) (by rw [h2]; norm_num)
      refine ⟨f, acc, e1, Or.inr ⟨h2, ?_⟩⟩
      have hb := (e2 (by norm_num)).1
      rw [h2, show (2 : ℚ) ^ (16 : ℤ) * 2 ^ ((11 : ℤ) - 17) = ((1024 : ℤ) : ℚ) by norm_num, Int.floor_intCast] at hb
      cases s
      · have : f.bits.toNat = 0x7C00 := by norm_num at hb; omega
        rw [this]; simp [Format.decode, half]
      · have : f.bits.toNat = 0xFC00 := by norm_num at hb; omega
        rw [this]; simp [Format.decode, half]

theorem datum_nonneg {z : BigFloat} {s : Bool} {r : ℚ} (h : z.datum = .num s r) : 0 ≤ r := by
  unfold BigFloat.datum at h
  split at h
  · simp at h; rw [← h.2]
  · simp at h
  · simp at h; rw [← h.2]; unfold BigFloat.mag; positivity

theorem signed_dist {s : Bool} {m r : ℚ} : |signed s m - signed s r| = |m - r| := by
  unfold signed; cases s
  · rfl
  · simp only [if_true]; rw [← abs_neg]; congr 1; ring

theorem out_float64 {x : F64} {s : Bool} {m : ℚ} (hd : double.decode x.toNat = .num s m) (hr : InRange (-24) 16 m) :
    ∃ f acc r, newFromFloat64 x = .ok (f, acc) ∧ 0 ≤ r ∧ Out (half.decode f.bits.toNat) s r ∧ (m = 0 → r = 0) ∧
      (m ≠ 0 → RoundsToBits 11 (signed s m) (signed s r)) := by
  by_cases hm : m = 0
  · rw [hm] at hd
    have hz0 : half.decode (if s then NegZero else Zero).bits.toNat = .num s 0 := by
      cases s
      · show half.decode 0 = _
        simp [Format.decode, half]
      · show half.decode 0x8000 = _
        simp [Format.decode, half]
    exact ⟨_, _, 0, newFromFloat64_zero hd, le_rfl, Or.inl ⟨by positivity, 0, hz0, ⟨_, s, hz0⟩, le_rfl, le_rfl, fun q _ h => h⟩,
      fun _ => rfl, fun h => absurd hm h⟩
  · obtain ⟨h1, h2⟩ := hr.resolve_left hm
    obtain ⟨z, r, e1, e2, e3, e4⟩ := C55_binary16_float64 x hd hm
    have hr0 := datum_nonneg e3
    have hpow : ∀ e : ℤ, |m - r| ≤ |m - 2 ^ e| := by
      intro e
      have h := e4.2.1 (if s then -1 else 1) e (by cases s <;> norm_num)
      rw [signed_dist, show ((if s then -1 else 1 : ℤ) : ℚ) * 2 ^ e = signed s (2 ^ e) by unfold signed; cases s <;> simp,
        signed_dist] at h
      exact h
    have k1 := hpow (-24)
    have k2 := hpow 16
    have b1 : (2 : ℚ) ^ (-24 : ℤ) ≤ r := by
      generalize (2 : ℚ) ^ (-24 : ℤ) = P at *
      by_contra hc
      push Not at hc
      rw [abs_of_nonneg (by linarith), abs_of_nonneg (by linarith)] at k1
      linarith
    have b2 : r ≤ (2 : ℚ) ^ (16 : ℤ) := by
      generalize (2 : ℚ) ^ (16 : ℤ) = P at *
      by_contra hc
      push Not at hc
      rw [abs_of_neg (by linarith), abs_of_neg (by linarith)] at k2
      linarith
    obtain ⟨f, acc, g1, g2⟩ := out_big e2 e3 (Or.inr ⟨b1, b2⟩)
    exact ⟨f, acc, r, by rw [e1, g1], hr0, g2, fun h => absurd h hm, fun _ => e4⟩

theorem signed_eq_zero {s : Bool} {m : ℚ} : signed s m = 0 ↔ m = 0 := by unfold signed; cases s <;> simp

/-- C57, the part that holds for `binary16.NewFromFloat64`: it is monotone on infinities, zeros and the magnitudes in
`[2^-24, 2^16)`, where numbers from 65520 on become infinities. Missing, because false: overflow and underflow. -/
theorem C57_binary16_float64_partial (x y : F64) (gx : Good (-24) 16 (double.decode x.toNat)) (gy : Good (-24) 16 (double.decode y.toNat))
    (hle : Datum.Le (double.decode x.toNat) (double.decode y.toNat)) :
    ∃ f acc g acc', newFromFloat64 x = .ok (f, acc) ∧ newFromFloat64 y = .ok (g, acc') ∧
      Datum.Le (half.decode f.bits.toNat) (half.decode g.bits.toNat) := by
  have hi : ∀ s : Bool, half.decode (if s then NegInf else Inf).bits.toNat = .inf s := by
    intro s
    cases s
    · show half.decode 0x7C00 = _
      simp [Format.decode, half]
    · show half.decode 0xFC00 = _
      simp [Format.decode, half]
  have hnn : ∀ {d s r}, Out d s r → ∀ t, d ≠ .nan t := by
    rintro d s r (⟨-, q, rfl, -⟩ | ⟨-, rfl⟩) t <;> simp
  rcases gx with ⟨s, dx⟩ | ⟨s, m, dx, rx⟩ <;> rcases gy with ⟨s', dy⟩ | ⟨s', m', dy, ry⟩
  · rw [dx, dy] at hle
    exact ⟨_, _, _, _, newFromFloat64_inf dx, newFromFloat64_inf dy, by rw [hi, hi]; exact hle⟩
  · rw [dx, dy] at hle
    obtain ⟨g, acc', r', h1', h0', h2', h3', h4'⟩ := out_float64 dy ry
    refine ⟨_, _, _, _, newFromFloat64_inf dx, h1', ?_⟩
    rw [hi]
    cases s
    · exact absurd hle not_inf_le
    · exact negInf_le (hnn h2')
  · rw [dx, dy] at hle
    obtain ⟨f, acc, r, h1, h0, h2, h3, h4⟩ := out_float64 dx rx
    refine ⟨_, _, _, _, h1, newFromFloat64_inf dy, ?_⟩
    rw [hi]
    cases s'
    · exact le_inf (hnn h2)
    · exact absurd hle not_le_negInf
  · obtain ⟨f, acc, r, h1, h0, h2, h3, h4⟩ := out_float64 dx rx
    by_cases hxy : x = y
    · exact ⟨f, acc, f, acc, h1, hxy ▸ h1, out_mono h0 h0 h2 h2 le_rfl⟩
    obtain ⟨g, acc', r', h1', h0', h2', h3', h4'⟩ := out_float64 dy ry
    rw [dx, dy, le_num] at hle
    refine ⟨f, acc, g, acc', h1, h1', out_mono h0 h0' h2 h2' ?_⟩
    have z0 : ∀ t : Bool, signed t 0 = 0 := by intro t; unfold signed; cases t <;> simp
    by_cases hm : m = 0
    · rw [h3 hm, z0]
      rw [hm, z0, signed_nonneg_iff ry.nonneg] at hle
      rw [signed_nonneg_iff h0']
      exact hle.imp id h3'
    by_cases hm' : m' = 0
    · rw [h3' hm', z0]
      rw [hm', z0] at hle
      have hpos : 0 < m := lt_of_le_of_ne rx.nonneg (Ne.symm hm)
      cases s
      · simp [signed] at hle; linarith
      · simp [signed]; exact h0
    rcases hle.lt_or_eq with hlt | heq
    · exact roundsToBits_mono (h4 hm) (h4' hm') hlt
    · have hss : s = s' ∧ m = m' := by
        have : 0 < m := lt_of_le_of_ne rx.nonneg (Ne.symm hm)
        have := ry.nonneg
        unfold signed at heq
        cases s <;> cases s' <;> simp at heq
        · exact ⟨rfl, heq⟩
        · linarith
        · linarith
        · exact ⟨rfl, heq⟩
      obtain ⟨rfl, rfl⟩ := hss
      exact absurd (decode_inj64 (dx.trans dy.symm) (by rw [dx]; simp)) hxy

example := C57_binary16_float64_partial 0xFFF0000000000000 0xBFF6000000000000 (.inl ⟨_, Sample.inf_double⟩) (.inr ⟨_, _, Sample.x_double, .inr ⟨Sample.le_one (by norm_num) (by norm_num), Sample.lt_two (by norm_num) (by norm_num)⟩⟩) (by rw [Sample.inf_double, Sample.x_double]; exact Sample.inf_le_x)

/-- C57, the same for `binary16.NewFromFloat32`. -/
theorem C57_binary16_float32_partial (x y : F32) (gx : Good (-24) 16 (single.decode x.toNat)) (gy : Good (-24) 16 (single.decode y.toNat))
    (hle : Datum.Le (single.decode x.toNat) (single.decode y.toNat)) :
    ∃ f acc g acc', newFromFloat32 x = .ok (f, acc) ∧ newFromFloat32 y = .ok (g, acc') ∧
      Datum.Le (half.decode f.bits.toNat) (half.decode g.bits.toNat) := by
  have hx := (f32to64_decode x).2 (by rintro ⟨s, h⟩; exact Datum.Le.left hle s h)
  have hy := (f32to64_decode y).2 (by rintro ⟨s, h⟩; exact Datum.Le.right hle s h)
  rw [C55_binary16_float32, C55_binary16_float32]
  exact C57_binary16_float64_partial _ _ (by rw [hx]; exact gx) (by rw [hy]; exact gy) (by rw [hx, hy]; exact hle)

-- The hypotheses hold for 1/3 and 65519.996..., which becomes 65504, and for -Inf and 65520, which becomes +Inf.
example : Good (-24) 16 (double.decode (0x3FD5555555555555 : F64).toNat) ∧ Good (-24) 16 (double.decode (0x40EFFE0000000000 : F64).toNat) ∧
    Datum.Le (double.decode (0x3FD5555555555555 : F64).toNat) (double.decode (0x40EFFE0000000000 : F64).toNat) := by
  have h1 : double.decode (0x3FD5555555555555 : F64).toNat = .num false ((2 : ℚ) ^ (-2 : ℤ) * (1 + 0x5555555555555 / 2 ^ 52)) := by
    simp [Format.decode, double, Format.bias]
  have h2 : double.decode (0x40EFFE0000000000 : F64).toNat = .num false 65520 := by
    simp [Format.decode, double, Format.bias]; norm_num
  rw [h1, h2, le_num]
  exact ⟨Or.inr ⟨_, _, rfl, Or.inr ⟨by norm_num, by norm_num⟩⟩, Or.inr ⟨_, _, rfl, Or.inr ⟨by norm_num, by norm_num⟩⟩,
    by norm_num [signed]⟩
example : newFromFloat64 0x40EFFDFFFFFFFFFF = .ok (⟨0x7BFF⟩, .exact) ∧ newFromFloat64 0x40EFFE0000000000 = .ok (⟨0x7C00⟩, .exact) := by
  decide +kernel

end Binary16

-- Ordered quadruples: -1 and the smallest subnormal.
example : Datum.Le (quad.decode 0xBFFF0000000000000000000000000000) (quad.decode 1) := by
  have h1 : quad.decode 0xBFFF0000000000000000000000000000 = .num true 1 := by simp [Format.decode, quad, Format.bias]
  have h2 : quad.decode 1 = .num false ((2 : ℚ) ^ (-16382 : ℤ) * (1 / 2 ^ 112)) := by simp [Format.decode, quad, Format.bias]
  rw [h1, h2, le_num]
  have : (0 : ℚ) < 2 ^ (-16382 : ℤ) := by positivity
  simp only [signed]
  generalize (2 : ℚ) ^ (-16382 : ℤ) = P at *
  norm_num
  linarith

end GoFloat
