import Verif.Proofs.Trunc
/-
The common tail of the `Float32` and `Float64` methods: from the result of `Big` to a float.
-/
namespace GoFloat
open Spec

/-- The tail of the `Float64` methods. -/
def toF64 (x : BigFloat) (nan : Bool) : F64 × Accuracy :=
  if nan then (if x.signbit then (F64.nan.neg, .exact) else (F64.nan, .exact)) else x.float64

/-- The tail of the `Float32` methods. -/
def toF32 (x : BigFloat) (nan : Bool) : F32 × Accuracy :=
  if nan then (if x.signbit then (f64to32 F64.nan.neg, .exact) else (f64to32 F64.nan, .exact)) else x.float32

theorem float64_toNat {x : BigFloat} (hx : x.WF) : (x.float64.1).toNat = (x.toIEEE double.t double.w).1 := by
  unfold BigFloat.float64
  rw [BitVec.toNat_ofNat]
  exact Nat.mod_eq_of_lt (toIEEE_lt double (by decide) (by decide) hx)

theorem float32_toNat {x : BigFloat} (hx : x.WF) : (x.float32.1).toNat = (x.toIEEE single.t single.w).1 := by
  unfold BigFloat.float32
  rw [BitVec.toNat_ofNat]
  exact Nat.mod_eq_of_lt (toIEEE_lt single (by decide) (by decide) hx)

theorem accuracyTrue_refl {d : Datum} (h : ∀ s, d ≠ .nan s) : AccuracyTrue .exact d d := by
  cases d with
  | nan s => exact absurd rfl (h s)
  | inf s => exact ⟨_, _, rfl, rfl, rfl⟩
  | num s m => exact ⟨_, _, rfl, rfl, rfl⟩

theorem overflowAt_pos (F : Format) : 0 < F.overflowAt := by
  unfold Format.overflowAt
  have : (1 : ℚ) / 2 ^ (F.t + 1) ≤ 1 := by
    rw [div_le_one (by positivity)]; exact one_le_pow₀ (by norm_num)
  have h2 : (0 : ℚ) < 2 ^ F.bias := by positivity
  nlinarith

/-- A zero is rounded to itself. -/
theorem roundsTo_zero (F : Format) (hw : 1 ≤ F.w) (s : Bool) : F.decode (F.signPart s) = .num s 0 ∧ F.RoundsTo s 0 (F.signPart s) := by
  have hi : 0 < F.infCode := by
    unfold Format.infCode
    have : 2 ≤ 2 ^ F.w := by calc 2 = 2 ^ 1 := rfl
      _ ≤ 2 ^ F.w := Nat.pow_le_pow_right (by norm_num) hw
    exact Nat.mul_pos (by omega) (Nat.two_pow_pos _)
  have hd := F.decode_code s hi
  rw [(magc_eq_zero F).2 rfl, Nat.add_zero] at hd
  refine ⟨hd, ?_⟩
  unfold Format.RoundsTo
  rw [if_neg (not_le.2 (overflowAt_pos F))]
  refine ⟨0, hd, ?_, ?_⟩
  · intro c' s' r' _; rw [sub_self, abs_zero]; exact abs_nonneg _
  · intro c' s' r' _ hne he
    rw [sub_self, abs_zero] at he
    have : signed s' r' = signed s 0 := by
      have := abs_eq_zero.1 he.symm; linarith
    exact absurd this hne

/-- `toIEEE` on every variable. -/
theorem toIEEE_spec (F : Format) (ht : 1 ≤ F.t) (hw2 : 2 ≤ F.w) (hw30 : F.w ≤ 30) {x : BigFloat} (hx : x.WF) :
    (∀ s, x.datum = .inf s → F.decode (x.toIEEE F.t F.w).1 = .inf s) ∧
    (∀ s m, x.datum = .num s m → F.RoundsTo s m (x.toIEEE F.t F.w).1) ∧
    AccuracyTrue (x.toIEEE F.t F.w).2 (F.decode (x.toIEEE F.t F.w).1) x.datum := by
  cases hf : x.form with
  | zero =>
    have hd : x.datum = .num x.neg 0 := by unfold BigFloat.datum; rw [hf]
    rw [hd, toIEEE_zero F hf]
    obtain ⟨h1, h2⟩ := roundsTo_zero F (by omega) x.neg
    refine ⟨by simp, ?_, ?_⟩
    · intro s m h; simp only [Datum.num.injEq] at h; rw [← h.1, ← h.2]; exact h2
    · simp only; rw [h1]; exact accuracyTrue_refl (by simp)
  | inf =>
    have hd : x.datum = .inf x.neg := by unfold BigFloat.datum; rw [hf]
    rw [hd, toIEEE_inf F hf]
    have h1 := F.decode_inf x.neg
    refine ⟨?_, by simp, ?_⟩
    · intro s h; simp only [Datum.inf.injEq] at h; rw [← h]; exact h1
    · simp only; rw [h1]; exact accuracyTrue_refl (by simp)
  | finite =>
    rw [BigFloat.datum_finite hf]
    obtain ⟨h1, h2⟩ := toIEEE_finite_spec F ht hw2 hw30 hx hf
    refine ⟨by simp, ?_, h2⟩
    intro s m h; simp only [Datum.num.injEq] at h; rw [← h.1, ← h.2]; exact h1

/-- What the `Float64` methods return. -/
theorem toF64_spec {d : Datum} {x : BigFloat} {nan : Bool} (hx : x.WF) (h : Decoded d x nan) :
    (∀ s, d = .nan s → toF64 x nan = (if s then F64.nan.neg else F64.nan, .exact)) ∧
    (∀ s, d = .inf s → double.decode (toF64 x nan).1.toNat = .inf s) ∧
    (∀ s m, d = .num s m → double.RoundsTo s m (toF64 x nan).1.toNat) ∧
    ((∀ s, d ≠ .nan s) → AccuracyTrue (toF64 x nan).2 (double.decode (toF64 x nan).1.toNat) d) := by
  obtain ⟨h1, h2, h3⟩ := toIEEE_spec double (by decide) (by decide) (by decide) hx
  cases d with
  | nan s =>
    obtain ⟨rfl, hd⟩ := h
    obtain ⟨hneg, -, -⟩ := BigFloat.datum_inj_form hx hd
    refine ⟨?_, by simp, by simp, by simp⟩
    intro s' hs; simp only [Datum.nan.injEq] at hs
    rw [← hs]; unfold toF64 BigFloat.signbit; rw [if_pos rfl, hneg]; cases s <;> rfl
  | inf s =>
    obtain ⟨rfl, hd⟩ := h
    rw [hd] at h1 h2 h3
    have he : toF64 x false = x.float64 := rfl
    rw [he, float64_toNat hx]
    exact ⟨by simp, h1, by simp, fun _ => h3⟩
  | num s m =>
    obtain ⟨rfl, hd⟩ := h
    rw [hd] at h1 h2 h3
    have he : toF64 x false = x.float64 := rfl
    rw [he, float64_toNat hx]
    exact ⟨by simp, by simp, h2, fun _ => h3⟩

/-- What the `Float32` methods return. -/
theorem toF32_spec {d : Datum} {x : BigFloat} {nan : Bool} (hx : x.WF) (h : Decoded d x nan) :
    (∀ s, d = .nan s → toF32 x nan = (if s then 0xFFC00000 else 0x7FC00000, .exact)) ∧
    (∀ s, d = .inf s → single.decode (toF32 x nan).1.toNat = .inf s) ∧
    (∀ s m, d = .num s m → single.RoundsTo s m (toF32 x nan).1.toNat) ∧
    ((∀ s, d ≠ .nan s) → AccuracyTrue (toF32 x nan).2 (single.decode (toF32 x nan).1.toNat) d) := by
  obtain ⟨h1, h2, h3⟩ := toIEEE_spec single (by decide) (by decide) (by decide) hx
  cases d with
  | nan s =>
    obtain ⟨rfl, hd⟩ := h
    obtain ⟨hneg, -, -⟩ := BigFloat.datum_inj_form hx hd
    refine ⟨?_, by simp, by simp, by simp⟩
    intro s' hs; simp only [Datum.nan.injEq] at hs
    rw [← hs]; unfold toF32 BigFloat.signbit; rw [if_pos rfl, hneg]; cases s <;> decide
  | inf s =>
    obtain ⟨rfl, hd⟩ := h
    rw [hd] at h1 h2 h3
    have he : toF32 x false = x.float32 := rfl
    rw [he, float32_toNat hx]
    exact ⟨by simp, h1, by simp, fun _ => h3⟩
  | num s m =>
    obtain ⟨rfl, hd⟩ := h
    rw [hd] at h1 h2 h3
    have he : toF32 x false = x.float32 := rfl
    rw [he, float32_toNat hx]
    exact ⟨by simp, by simp, h2, fun _ => h3⟩

/-- Exactness: if `d` is a number of a smaller format, the float is that number. -/
theorem toF64_exact {F : Format} (hw : 2 ≤ F.w) (ht : F.t ≤ double.t) (hq : double.qmin ≤ F.qmin) (hb : F.bias ≤ double.bias)
    {c : ℕ} {x : BigFloat} {nan : Bool} (hx : x.WF) (h : Decoded (F.decode c) x nan) (hn : ∀ s, F.decode c ≠ .nan s) :
    double.decode (toF64 x nan).1.toNat = F.decode c ∧ (toF64 x nan).2 = .exact := by
  have hx2 : nan = false ∧ x.datum = F.decode c := by
    cases hd : F.decode c with
    | nan s => exact absurd hd (hn s)
    | inf s => rw [hd] at h; exact h
    | num s m => rw [hd] at h; exact h
  have hw := toIEEE_widen hw (G := double) (by decide) (by decide) ht hq hb hx hx2.2
  rw [hx2.1]
  have he : toF64 x false = x.float64 := rfl
  rw [he, float64_toNat hx]
  exact hw

theorem toF32_exact {F : Format} (hw : 2 ≤ F.w) (ht : F.t ≤ single.t) (hq : single.qmin ≤ F.qmin) (hb : F.bias ≤ single.bias)
    {c : ℕ} {x : BigFloat} {nan : Bool} (hx : x.WF) (h : Decoded (F.decode c) x nan) (hn : ∀ s, F.decode c ≠ .nan s) :
    single.decode (toF32 x nan).1.toNat = F.decode c ∧ (toF32 x nan).2 = .exact := by
  have hx2 : nan = false ∧ x.datum = F.decode c := by
    cases hd : F.decode c with
    | nan s => exact absurd hd (hn s)
    | inf s => rw [hd] at h; exact h
    | num s m => rw [hd] at h; exact h
  have hw := toIEEE_widen hw (G := single) (by decide) (by decide) ht hq hb hx hx2.2
  rw [hx2.1]
  have he : toF32 x false = x.float32 := rfl
  rw [he, float32_toNat hx]
  exact hw

/-- A non-NaN datum determines the bits of a float. -/
theorem decode_inj64 {x y : F64} (h : double.decode x.toNat = double.decode y.toNat) (hn : ∀ s, double.decode x.toNat ≠ .nan s) :
    x = y := by
  have key : ∀ z : F64, z.toNat = z.toNat / 2 ^ 63 % 2 * 2 ^ 63 + z.toNat % 2 ^ 63 := by
    intro z; have := z.isLt; omega
  have hw : double.t + double.w = 63 := rfl
  have hs := congrArg Datum.sign h
  rw [decode_sign, decode_sign, hw] at hs
  simp only [decide_eq_decide] at hs
  have hm : x.toNat % 2 ^ 63 = y.toNat % 2 ^ 63 := by
    rcases decode_cases double x.toNat with ⟨s, h1⟩ | ⟨h1, c1⟩ | ⟨h1, c1⟩
    · exact absurd h1 (hn s)
    all_goals
      rcases decode_cases double y.toNat with ⟨s, h2⟩ | ⟨h2, c2⟩ | ⟨h2, c2⟩
    · rw [h, h2] at h1; simp at h1
    · rw [hw] at c1 c2; rw [c1, c2]
    · rw [h, h2] at h1; simp at h1
    · rw [h, h2] at h1; simp at h1
    · rw [h, h2] at h1; simp at h1
    · rw [h, h2, Datum.num.injEq] at h1
      exact (double.magc_strictMono.injective h1.2).symm
  rw [← BitVec.toNat_inj, key x, key y, hm]
  have a1 : x.toNat / 2 ^ 63 % 2 < 2 := Nat.mod_lt _ (by norm_num)
  have a2 : y.toNat / 2 ^ 63 % 2 < 2 := Nat.mod_lt _ (by norm_num)
  omega

theorem decode_inj32 {x y : F32} (h : single.decode x.toNat = single.decode y.toNat) (hn : ∀ s, single.decode x.toNat ≠ .nan s) :
    x = y := by
  have key : ∀ z : F32, z.toNat = z.toNat / 2 ^ 31 % 2 * 2 ^ 31 + z.toNat % 2 ^ 31 := by
    intro z; have := z.isLt; omega
  have hw : single.t + single.w = 31 := rfl
  have hs := congrArg Datum.sign h
  rw [decode_sign, decode_sign, hw] at hs
  simp only [decide_eq_decide] at hs
  have hm : x.toNat % 2 ^ 31 = y.toNat % 2 ^ 31 := by
    rcases decode_cases single x.toNat with ⟨s, h1⟩ | ⟨h1, c1⟩ | ⟨h1, c1⟩
    · exact absurd h1 (hn s)
    all_goals
      rcases decode_cases single y.toNat with ⟨s, h2⟩ | ⟨h2, c2⟩ | ⟨h2, c2⟩
    · rw [h, h2] at h1; simp at h1
    · rw [hw] at c1 c2; rw [c1, c2]
    · rw [h, h2] at h1; simp at h1
    · rw [h, h2] at h1; simp at h1
    · rw [h, h2] at h1; simp at h1
    · rw [h, h2, Datum.num.injEq] at h1
      exact (single.magc_strictMono.injective h1.2).symm
  rw [← BitVec.toNat_inj, key x, key y, hm]
  have a1 : x.toNat / 2 ^ 31 % 2 < 2 := Nat.mod_lt _ (by norm_num)
  have a2 : y.toNat / 2 ^ 31 % 2 < 2 := Nat.mod_lt _ (by norm_num)
  omega

end GoFloat
