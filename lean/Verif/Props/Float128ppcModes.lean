import Verif.Proofs.SplitMode
import Verif.Props.Float128ppc
/-
C29 and C30 for arguments in every rounding mode.
-/
namespace GoFloat
namespace Float128ppc
open Spec

theorem sval_ne_zero {x : BigFloat} (hx : x.WF) (hf : x.form = .finite) : x.sval ≠ 0 := by
  have := BigFloat.mag_pos (hx.mant_pos hf)
  rw [BigFloat.sval_finite hf]
  cases x.neg <;> simp only [signed, Bool.false_eq_true, if_false, if_true]
  · exact this.ne'
  · exact neg_ne_zero.2 this.ne'

/-- C29, splitting, in every rounding mode and precision: with `v` the argument rounded to 106 bits in its own rounding mode,
`high` is the double nearest to `v`, `low` the exact remainder, at most half a unit in the last place of `high`.
Missing, because false: rounding to nearest whatever the mode (`C29_false_mode`) and a truthful accuracy (`C29_false`). -/
theorem C29_modes_partial (x : BigFloat) (hx : x.WF) (hf : x.form = .finite) {v : ℚ} (hv : RoundsToBitsIn x.mode 106 x.sval v)
    (hlo : 2 ^ (-969 : ℤ) ≤ x.mag) (hhi : |v| < double.overflowAt) :
    ∃ f x', newFromBig x = .ok ((f, .exact), x') ∧
      ∃ mh sl ml, double.decode f.high.toNat = .num x.neg mh ∧ double.RoundsTo x.neg |v| f.high.toNat ∧
        double.decode f.low.toNat = .num sl ml ∧ signed x.neg mh + signed sl ml = v ∧
        (∀ e : ℤ, mh < 2 ^ (e + 1) → ml ≤ 2 ^ (e - 53)) := by
  obtain ⟨w, hw, -, h⟩ := newFromBig_mode hx hf
  obtain rfl := RoundsToBitsIn.unique (by norm_num) (sval_ne_zero hx hf) hv hw
  obtain ⟨high, low, rh, x', h1, -, -, h3, h4, h5, h6, h7, h8⟩ := h hhi
  obtain ⟨⟨sl, ml, q1, q2⟩, q3⟩ := h8 hlo
  refine ⟨⟨high, low⟩, x', h1, rh, sl, ml, h3, h5, q1, by rw [q2]; ring, ?_⟩
  intro e he
  have hml : 0 ≤ ml := by
    obtain ⟨n, -, h, -⟩ := double.code_of_decode q1
    rw [h]; exact double.magc_nonneg n
  have := q3 e he
  rw [← q2, BigFloat.signed_abs hml] at this
  exact this

/-- C29, below that range, in every rounding mode: `high` is still the double nearest to the rounded argument and `low` the
double nearest to the remainder. -/
theorem C29_modes_nearest (x : BigFloat) (hx : x.WF) (hf : x.form = .finite) {v : ℚ} (hv : RoundsToBitsIn x.mode 106 x.sval v)
    (hhi : |v| < double.overflowAt) :
    ∃ f x', newFromBig x = .ok ((f, .exact), x') ∧
      ∃ mh, double.decode f.high.toNat = .num x.neg mh ∧ double.RoundsTo x.neg |v| f.high.toNat ∧
        (v - signed x.neg mh = 0 → f.low = 0) ∧
        (v - signed x.neg mh ≠ 0 →
          double.RoundsTo (decide (v - signed x.neg mh < 0)) |v - signed x.neg mh| f.low.toNat) := by
  obtain ⟨w, hw, -, h⟩ := newFromBig_mode hx hf
  obtain rfl := RoundsToBitsIn.unique (by norm_num) (sval_ne_zero hx hf) hv hw
  obtain ⟨high, low, rh, x', h1, -, -, h3, h4, h5, h6, h7, -⟩ := h hhi
  exact ⟨⟨high, low⟩, x', h1, rh, h3, h5, h6, h7⟩

/-- C30, totality, in every rounding mode: `NewFromBig` panics exactly when the argument, rounded to 106 bits in its own
rounding mode, is past the range of double. Missing, because false: that it never does. -/
theorem C30_modes_partial (x : BigFloat) (hx : x.WF) (hf : x.form = .finite) {v : ℚ} (hv : RoundsToBitsIn x.mode 106 x.sval v) :
    newFromBig x = .error .errNaN ↔ double.overflowAt ≤ |v| := by
  obtain ⟨w, hw, h1, h2⟩ := newFromBig_mode hx hf
  obtain rfl := RoundsToBitsIn.unique (by norm_num) (sval_ne_zero hx hf) hv hw
  refine ⟨fun h => ?_, h1⟩
  by_contra hc
  obtain ⟨high, low, rh, x', h3, -⟩ := h2 (not_le.1 hc)
  rw [h3] at h; exact absurd h (by simp)

/-- C30, the argument afterwards: its value is what it was, rounded to 106 bits in its own rounding mode. -/
theorem C30_modes_argument (x : BigFloat) (hx : x.WF) (hf : x.form = .finite) {r : Float × Accuracy} {x' : BigFloat}
    (h : newFromBig x = .ok (r, x')) : x'.form = .finite ∧ RoundsToBitsIn x.mode 106 x.sval x'.sval := by
  obtain ⟨w, hw, h1, h2⟩ := newFromBig_mode hx hf
  by_cases hc : double.overflowAt ≤ |w|
  · rw [h1 hc] at h; exact absurd h (by simp)
  · obtain ⟨high, low, rh, y, h3, h4, h5, -⟩ := h2 (not_le.1 hc)
    rw [h3] at h
    simp only [Except.ok.injEq, Prod.mk.injEq] at h
    obtain ⟨-, rfl⟩ := h
    exact ⟨h4, by rw [h5]; exact hw⟩

/-- Every finite argument has a rounded value, so the theorems above say something about each. -/
theorem rounds_exists (x : BigFloat) (hx : x.WF) (hf : x.form = .finite) : ∃ v, RoundsToBitsIn x.mode 106 x.sval v := by
  obtain ⟨w, hw, -⟩ := newFromBig_mode hx hf
  exact ⟨w, hw⟩

-- `1 + 2^-200` rounds to 1 towards zero, and up to `1 + 2^-105` away from zero
example : (onePlus .toZero).WF ∧ RoundsToBitsIn (onePlus .toZero).mode 106 (onePlus .toZero).sval 1 := by
  refine ⟨onePlus_wf _, ?_⟩
  have h := step_spec (mode := .toZero) (neg := false) (p := 106) (q := 2 ^ 105) (N := 2 ^ 105) (r := 2 ^ (-95 : ℤ)) (j := -105)
    (by norm_num) (by norm_num) (by norm_num) (by positivity) (by norm_num) ⟨Or.inl rfl, fun _ => rfl, fun _ => rfl⟩
  rw [BigFloat.sval_finite (show (onePlus .toZero).form = .finite from rfl), onePlus_mag]
  norm_num [signed, onePlus] at h ⊢
  exact h

example : RoundsToBitsIn (onePlus .awayFromZero).mode 106 (onePlus .awayFromZero).sval (1 + 2 ^ (-105 : ℤ)) := by
  have h := step_spec (mode := .awayFromZero) (neg := false) (p := 106) (q := 2 ^ 105) (N := 2 ^ 105 + 1) (r := 2 ^ (-95 : ℤ)) (j := -105)
    (by norm_num) (by norm_num) (by norm_num) (by positivity) (by norm_num) ⟨Or.inr rfl, fun h => absurd h (by positivity), fun _ => rfl⟩
  rw [BigFloat.sval_finite (show (onePlus .awayFromZero).form = .finite from rfl), onePlus_mag]
  norm_num [signed, onePlus] at h ⊢
  exact h

end Float128ppc
end GoFloat
