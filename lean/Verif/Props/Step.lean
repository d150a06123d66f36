import Verif.Props.Detour
/-
C101: to float32 in one step, `f.Float32()`, and in two, `float32(f.Float64())`.
-/
namespace GoFloat
open Spec Float128ppc

/-- `q` is `float32(r)`: the conversion of the language rounds to nearest, ties to even (The Go Programming Language Specification, Conversions, and
IEEE 754 arithmetic of the machine). Nothing is asked of NaNs. -/
def IsFloat32Of (r : F64) (q : F32) : Prop :=
  match double.decode r.toNat with
  | .num s v => single.RoundsTo s v q.toNat
  | .inf s => single.decode q.toNat = .inf s
  | .nan _ => True

/-- What is half way between two floats of single precision is a double. -/
theorem halfway_double {n : ℕ} (hn : n < single.infCode) : ∃ k, k < double.infCode ∧ 2 * double.magc k = single.magc n + single.magc (n + 1) := by
  obtain ⟨k, N, hs⟩ := Strconv.exists_split single hn
  have h1 := hs.lt
  have hk : k + 2 < 2 ^ single.w := by
    rcases hs.k_lt with h | ⟨-, h⟩
    · exact h
    · exact absurd h (by decide)
  change k + 2 < 2 ^ 8 at hk
  change N < 2 ^ (23 + 1) at h1
  obtain ⟨c, hc, e⟩ := exists_code double (by decide) (N := 2 * N + 1) (q := single.qmin + k - 1) (by change 2 * N + 1 < 2 ^ 53; omega)
    (by norm_num [double, single, Format.qmin, Format.bias]; omega) (by
      have hN : ((2 * N + 1 : ℕ) : ℚ) < (2 : ℚ) ^ (25 : ℤ) := by
        have : 2 * N + 1 < 2 ^ 25 := by omega
        exact_mod_cast this
      refine lt_of_lt_of_le (mul_lt_mul_of_pos_right hN (zpow_pos (by norm_num) _)) ?_
      rw [← zpow_add₀ (by norm_num)]
      refine zpow_le_zpow_right₀ (by norm_num) ?_
      norm_num [double, single, Format.qmin, Format.bias]
      omega)
  refine ⟨c, hc, ?_⟩
  rw [hs.upper_mid, e]
  push_cast
  ring

theorem not_misled_self {F : Format} {m : ℚ} : ¬ Misled F m m := by
  rintro ⟨c, -, h⟩
  split at h <;> exact absurd h (lt_irrefl _)

/-- The second step goes wrong exactly if the first leads half way between two floats, away from the number. -/
theorem through_double {s : Bool} {m : ℚ} (hm : 0 ≤ m) {r : F64} (hr : double.RoundsTo s m r.toNat) {q q' : F32} (hq : single.RoundsTo s m q.toNat)
    (hq' : IsFloat32Of r q') : q' = q ↔ ∀ v, double.decode r.toNat = .num s v → ¬ Misled single m v := by
  have hu : q' = q ↔ single.RoundsTo s m q'.toNat := by
    constructor
    · rintro rfl; exact hq
    · intro h
      exact (decode_inj32 (RoundsTo.unique (by decide) hq h) (roundsTo_not_nan hq)).symm
  rw [hu]
  by_cases ho : double.overflowAt ≤ m
  · have hr' := hr
    unfold Format.RoundsTo at hr'
    rw [if_pos ho] at hr'
    unfold IsFloat32Of at hq'
    rw [hr'] at hq'
    have hso : single.overflowAt ≤ m := by
      refine le_trans ?_ ho
      have e1 : single.overflowAt ≤ (2 : ℚ) ^ (128 : ℤ) := by norm_num [Format.overflowAt, single, Format.bias]
      have e2 : (2 : ℚ) ^ (1023 : ℤ) ≤ double.overflowAt := by
        rw [show double.overflowAt = (2 : ℚ) ^ (1023 : ℤ) * (2 - 1 / 2 ^ 53) by norm_num [Format.overflowAt, double, Format.bias]]
        exact le_mul_of_one_le_right (zpow_nonneg (by norm_num) _) (by norm_num)
      exact e1.trans ((zpow_le_zpow_right₀ (by norm_num) (by norm_num)).trans e2)
    constructor
    · intro _ v hv
      rw [hr'] at hv; cases hv
    · intro _
      unfold Format.RoundsTo
      rw [if_pos hso]
      exact hq'
  · have hr' := hr
    unfold Format.RoundsTo at hr'
    rw [if_neg ho] at hr'
    obtain ⟨v, hv, hnear, -⟩ := hr'
    have hv0 : 0 ≤ v := decode_nonneg hv
    unfold IsFloat32Of at hq'
    rw [hv] at hq'
    have near : ∀ {n}, n < single.infCode → |m - v| ≤ |m - (single.magc n + single.magc (n + 1)) / 2| := by
      intro n hn
      obtain ⟨k, hk, e⟩ := halfway_double hn
      have h := hnear _ _ _ (double.decode_code s hk)
      rw [show (single.magc n + single.magc (n + 1)) / 2 = double.magc k by linarith]
      have e2 : ∀ a b : ℚ, |signed s a - signed s b| = |a - b| := by
        intro a b
        cases s with
        | false => rfl
        | true =>
          show |(-a) - (-b)| = _
          rw [show -a - -b = -(a - b) by ring, abs_neg]
      rwa [e2, e2] at h
    rw [twice_of single (by decide) (by decide) hm hv0 ?_ ?_ hq']
    · constructor
      · intro h w hw
        rw [hv] at hw
        cases hw
        exact h
      · intro h; exact h v hv
    · intro n hn h
      by_contra hlt
      have h1 := near hn
      rw [abs_of_nonneg (a := m - (single.magc n + single.magc (n + 1)) / 2) (by linarith), abs_of_nonneg (by linarith)] at h1
      linarith
    · intro n hn h
      by_contra hlt
      have h1 := near hn
      rw [abs_of_nonpos (a := m - (single.magc n + single.magc (n + 1)) / 2) (by linarith), abs_of_nonpos (by linarith)] at h1
      linarith

/-- The same, for what the methods return. -/
theorem in_two_steps {d : Datum} {r : F64} {acc : Accuracy} {q : F32} {acc' : Accuracy} (h64 : Converts64 d r acc) (h32 : Converts32 d q acc') {s : Bool} {m : ℚ}
    (hd : d = .num s m) (hm : 0 ≤ m) {q' : F32} (hq' : IsFloat32Of r q') :
    (q' = q ↔ ∀ v, double.decode r.toNat = .num s v → ¬ Misled single m v) ∧ (acc = .exact → q' = q) := by
  subst hd
  have h := through_double hm h64.1 h32.1 hq'
  refine ⟨h, ?_⟩
  rintro rfl
  rw [h]
  intro v hv
  obtain ⟨a, b, ha, hb, e⟩ := h64.2
  rw [hv] at ha
  simp only [Datum.key, Option.some.injEq] at ha hb
  rw [← ha, ← hb] at e
  have e1 := congrArg Prod.snd e
  dsimp only at e1
  have : v = m := by cases s <;> simpa [signed] using e1
  rw [this]
  exact not_misled_self

namespace Binary128

/-- C101: `float32(f.Float64())` is `f.Float32()`, unless `Float64` returns the double half way between two floats of which the even one is not the
nearest to the quadruple; it always is if `Float64` is exact. -/
theorem C101_binary128 (f : Float) {s : Bool} {m : ℚ} (hd : quad.decode f.code = .num s m) : ∃ r acc q acc', f.float64 = .ok (r, acc) ∧ f.float32 = .ok (q, acc') ∧
    ∀ q', IsFloat32Of r q' → (q' = q ↔ ∀ v, double.decode r.toNat = .num s v → ¬ Misled single m v) ∧ (acc = .exact → q' = q) := by
  obtain ⟨r, acc, h1, h2⟩ := C17_binary128_float64 f
  obtain ⟨q, acc', h3, h4⟩ := C17_binary128_float32 f
  exact ⟨r, acc, q, acc', h1, h3, fun q' hq' => in_two_steps h2 h4 hd (decode_nonneg hd) hq'⟩

example := C101_binary128 ⟨0xBFFF600000000000, 0⟩ Sample.x_quad

end Binary128

namespace Float80x86

/-- C101: the same for float80x86. -/
theorem C101_float80x86 (f : Float) {s : Bool} {m : ℚ} (hd : f.val = .num s m) : ∃ r acc q acc', f.float64 = .ok (r, acc) ∧ f.float32 = .ok (q, acc') ∧
    ∀ q', IsFloat32Of r q' → (q' = q ↔ ∀ v, double.decode r.toNat = .num s v → ¬ Misled single m v) ∧ (acc = .exact → q' = q) := by
  obtain ⟨r, acc, h1, h2⟩ := C23_float80x86_float64 f
  obtain ⟨q, acc', h3, h4⟩ := C23_float80x86_float32 f
  obtain ⟨x, nan, -, -, -, -, -, h5⟩ := C20_float80x86_big f
  rw [hd] at h5
  exact ⟨r, acc, q, acc', h1, h3, fun q' hq' => in_two_steps h2 h4 hd (Binary16.datum_nonneg h5.2) hq'⟩

example := C101_float80x86 ⟨0xBFFF, 0xB000000000000000⟩ Sample.x_val

/-- C101, the exception exists: for 1 + 2^-24 + 2^-60 `Float32` is the float after 1 but `float32(Float64())` is 1. -/
theorem C101_float80x86_false : (⟨0x3FFF, 0x8000008000000008⟩ : Float).float64 = .ok (0x3FF0000010000000, .below) ∧
    (⟨0x3FFF, 0x8000008000000008⟩ : Float).float32 = .ok (0x3F800001, .above) ∧ IsFloat32Of 0x3FF0000010000000 0x3F800000 := by
  refine ⟨by decide +kernel, by decide +kernel, ?_⟩
  have hv : double.decode (0x3FF0000010000000 : F64).toNat = .num false (1 + 2 ^ (-24 : ℤ)) := by
    show double.decode 0x3FF0000010000000 = _
    norm_num [Format.decode, double, Format.bias]
  unfold IsFloat32Of
  rw [hv]
  refine (same32 (x := ⟨53, .toNearestEven, .exact, .finite, false, 2 ^ 24 + 1, 1⟩)
    ⟨by decide, by decide, by decide, by decide, by decide, fun _ => ⟨2 ^ 24 + 1, 0, by decide, by decide⟩⟩ ?_).1 (by decide +kernel)
  rw [BigFloat.datum_lit 25 rfl (by decide)]
  norm_num

end Float80x86

namespace Float128ppc

/-- C101: the same for double-doubles, with the number that `Big` returns. -/
theorem C101_float128ppc (f : Float) {s₁ s₂ : Bool} {m₁ m₂ : ℚ} (h1 : double.decode f.high.toNat = .num s₁ m₁) (h2 : double.decode f.low.toNat = .num s₂ m₂) :
    ∃ x s m r acc q acc', f.big = .ok (x, false) ∧ x.datum = .num s m ∧ f.float64 = .ok (r, acc) ∧ f.float32 = .ok (q, acc') ∧
      ∀ q', IsFloat32Of r q' → (q' = q ↔ ∀ v, double.decode r.toNat = .num s v → ¬ Misled single m v) ∧ (acc = .exact → q' = q) := by
  obtain ⟨x, nan, hb, hsum⟩ := C27_partial f (by intro s; rw [h1]; simp)
  rw [h1, h2] at hsum
  obtain ⟨rfl, -, -, hwf, s, m, hd, -⟩ := hsum
  have hdec : Decoded (.num s m) x false := ⟨rfl, hd⟩
  exact ⟨x, s, m, _, _, _, _, hb, hd, float64_of_big hb, float32_of_big hb,
    fun q' hq' => in_two_steps (toF64_converts hwf hdec) (toF32_converts hwf hdec) rfl (Binary16.datum_nonneg hd) hq'⟩

-- -11/8 twice
example := C101_float128ppc ⟨0xBFF6000000000000, 0xBFF6000000000000⟩ Sample.x_double Sample.x_double

end Float128ppc
end GoFloat
