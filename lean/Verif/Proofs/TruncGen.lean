import Verif.Proofs.ToFloat
import Verif.Spec.Convert
/-
What the truncating conversions of binary128 and float80x86 have in common.
-/
namespace GoFloat
open Spec

theorem code_parts (F : Format) {c : ℕ} (hc : c < 2 ^ (F.t + F.w + 1)) :
    F.signPart (decide (c / 2 ^ (F.t + F.w) % 2 = 1)) + c % 2 ^ (F.t + F.w) = c := by
  have h1 : c / 2 ^ (F.t + F.w) < 2 := by
    rw [Nat.div_lt_iff_lt_mul (by positivity)]; rw [pow_succ] at hc; omega
  have h2 := Nat.div_add_mod c (2 ^ (F.t + F.w))
  generalize c / 2 ^ (F.t + F.w) = q at h1 h2 ⊢
  by_cases h : q % 2 = 1
  · rw [decide_eq_true h]
    have h3 : q = 1 := by omega
    rw [h3] at h2
    show 2 ^ (F.t + F.w) + _ = _
    omega
  · rw [decide_eq_false h]
    have h3 : q = 0 := by omega
    rw [h3] at h2
    show 0 + _ = _
    omega

/-- To show something of the encoding of a variable that holds a number of the format, it is enough to show it for
the infinities, the zeros and the finite codes. -/
theorem of_decode (F : Format) {x : BigFloat} {c : ℕ} (hc : c < 2 ^ (F.t + F.w + 1)) (hd : x.datum = F.decode c)
    {R : ℕ → Prop} (hinf : x.form = .inf → R (F.signPart x.neg + F.infCode)) (hz : x.form = .zero → R (F.signPart x.neg))
    (hfin : x.form = .finite → ∀ n, n < F.infCode → x.mag = F.magc n → R (F.signPart x.neg + n)) : R c := by
  have hs := code_parts F hc
  rcases decode_cases F c with ⟨s, h⟩ | ⟨h, hc⟩ | ⟨h, hc⟩
  · rw [h] at hd; exact absurd hd (BigFloat.datum_not_nan x s)
  · rw [h] at hd
    obtain ⟨h1, h2⟩ := BigFloat.datum_inf hd
    rw [← hs, hc, ← h1]; exact hinf h2
  · rw [h] at hd
    cases hf : x.form with
    | zero =>
      simp only [BigFloat.datum, hf, Datum.num.injEq] at hd
      have h0 := (magc_eq_zero F).1 hd.2.symm
      rw [← hs, ← hd.1, h0, Nat.add_zero]; exact hz hf
    | finite =>
      rw [BigFloat.datum_finite hf, Datum.num.injEq] at hd
      rw [← hs, ← hd.1]; exact hfin hf _ hc hd.2
    | inf => simp [BigFloat.datum, hf] at hd

/-- Inside the range of the format the formulas of `NewFromBig` truncate. -/
theorem trunc_range (F : Format) (hw : 2 ≤ F.w) {x : BigFloat} (hm : 0 < x.mant) {c : ℕ} {acc : Accuracy}
    (hd : -(F.t : ℤ) < x.exp - 1 + F.bias → x.exp - 1 + F.bias ≤ 0 →
      (c : ℤ) = (F.signPart x.neg : ℤ) + ⌊x.mag * 2 ^ (-F.qmin)⌋ ∧ acc = .exact)
    (hn : 1 ≤ x.exp - 1 + F.bias →
      (c : ℤ) = (F.signPart x.neg : ℤ) + (x.exp - 1 + F.bias) % 2 ^ F.w * 2 ^ F.t
          + (⌊x.mag * 2 ^ ((F.t : ℤ) + 1 - x.exp)⌋ - 2 ^ F.t) ∧
        acc = if (⌊x.mag * 2 ^ ((F.t : ℤ) + 1 - x.exp)⌋ : ℚ) = x.mag * 2 ^ ((F.t : ℤ) + 1 - x.exp) then
          (if 2 ^ F.w ≤ x.exp - 1 + F.bias then .above else .exact) else .below)
    (h1 : F.qmin < x.exp) (h2 : x.exp ≤ F.bias + 1) :
    ∃ n, c = F.signPart x.neg + n ∧ n < F.infCode ∧ F.magc n ≤ x.mag ∧ x.mag < F.magc (n + 1) ∧
      (x.exp - 1 + F.bias ≤ 0 → acc = .exact) ∧
      (1 ≤ x.exp - 1 + F.bias → acc = if F.magc n = x.mag then .exact else .below) := by
  obtain ⟨n, hn1, hn2, hn3, hn4⟩ := truncCode_spec F hw hm h2
  have hq : F.qmin = 1 - F.bias - F.t := rfl
  have hb : F.bias * 2 < 2 ^ F.w - 1 := by
    unfold Format.bias
    obtain ⟨v, hv⟩ : ∃ v, F.w = v + 1 := ⟨F.w - 1, by omega⟩
    rw [hv, Nat.add_sub_cancel, pow_succ]; omega
  refine ⟨n, ?_, hn2, hn3, hn4, fun h => (hd (by omega) h).2, ?_⟩
  · by_cases h : x.exp - 1 + F.bias ≤ 0
    · have h3 := (hd (by omega) h).1
      unfold truncCode at hn1
      rw [if_pos h] at hn1
      rw [hn1] at h3
      exact_mod_cast h3
    · have h3 := (hn (by omega)).1
      unfold truncCode at hn1
      rw [if_neg h] at hn1
      rw [Int.emod_eq_of_lt (by omega) (by omega)] at h3
      have : (c : ℤ) = ((F.signPart x.neg + n : ℕ) : ℤ) := by rw [h3, Nat.cast_add, ← hn1]; ring
      exact_mod_cast this
  · intro h
    have h3 := (hn h).2
    have h4 := floor_iff_magc F hm h hn1
    have h6 : ¬ (2 ^ F.w ≤ x.exp - 1 + F.bias) := by omega
    rw [if_neg h6] at h3
    rw [h3]
    by_cases h5 : F.magc n = x.mag
    · rw [if_pos (h4.2 h5), if_pos h5]
    · rw [if_neg (fun h => h5 (h4.1 h)), if_neg h5]

/-- A number of the format is kept. -/
theorem trunc_exact (F : Format) (hw : 2 ≤ F.w) {x : BigFloat} (hm : 0 < x.mant) {c : ℕ} {acc : Accuracy}
    (hr : F.qmin < x.exp → x.exp ≤ F.bias + 1 → ∃ n, c = F.signPart x.neg + n ∧ n < F.infCode ∧ F.magc n ≤ x.mag ∧
      x.mag < F.magc (n + 1) ∧ (x.exp - 1 + F.bias ≤ 0 → acc = .exact) ∧
      (1 ≤ x.exp - 1 + F.bias → acc = if F.magc n = x.mag then .exact else .below))
    {n : ℕ} (hn : n < F.infCode) (h : x.mag = F.magc n) : c = F.signPart x.neg + n ∧ acc = .exact := by
  obtain ⟨-, h2, h3⟩ := truncCode_exact F hw hm hn h
  obtain ⟨n', hc, hn1, hn2, hn3, ha1, ha2⟩ := hr h2 h3
  rw [h] at hn2 hn3
  have hnn : n' = n := by
    have h5 : n' ≤ n := F.magc_strictMono.le_iff_le.1 hn2
    have h6 : n < n' + 1 := F.magc_strictMono.lt_iff_lt.1 hn3
    omega
  subst hnn
  refine ⟨hc, ?_⟩
  by_cases h7 : x.exp - 1 + F.bias ≤ 0
  · exact ha1 h7
  · rw [ha2 (by omega), if_pos h.symm]

theorem signbit32_eq (x : F32) : F32.signbit x = (single.decode x.toNat).sign := by
  rw [decode_sign]
  unfold F32.signbit
  have h1 : single.t + single.w = 31 := rfl
  rw [h1, Bool.eq_iff_iff, beq_iff_eq, decide_eq_true_eq]
  have := x.isLt
  omega

theorem accuracy_inf {acc : Accuracy} {s : Bool} (h : AccuracyTrue acc (.inf s) (.inf s)) : acc = .exact := by
  obtain ⟨a, b, ha, hb, hab⟩ := h
  rw [ha] at hb
  have : a = b := by simpa using hb
  subst this
  cases acc with
  | exact => rfl
  | below => simp [keyLt] at hab
  | above => simp [keyLt] at hab

theorem toF64_converts {d : Datum} {x : BigFloat} {nan : Bool} (hx : x.WF) (h : Decoded d x nan) :
    Converts64 d (toF64 x nan).1 (toF64 x nan).2 := by
  obtain ⟨h1, h2, h3, h4⟩ := toF64_spec hx h
  cases d with
  | nan s => unfold Converts64; rw [h1 s rfl]; exact ⟨by cases s <;> rfl, rfl⟩
  | inf s =>
    have h5 := h4 (by simp)
    rw [h2 s rfl] at h5
    exact ⟨h2 s rfl, accuracy_inf h5⟩
  | num s m => exact ⟨h3 s m rfl, h4 (by simp)⟩

theorem toF32_converts {d : Datum} {x : BigFloat} {nan : Bool} (hx : x.WF) (h : Decoded d x nan) :
    Converts32 d (toF32 x nan).1 (toF32 x nan).2 := by
  obtain ⟨h1, h2, h3, h4⟩ := toF32_spec hx h
  cases d with
  | nan s => unfold Converts32; rw [h1 s rfl]; exact ⟨rfl, rfl⟩
  | inf s =>
    have h5 := h4 (by simp)
    rw [h2 s rfl] at h5
    exact ⟨h2 s rfl, accuracy_inf h5⟩
  | num s m => exact ⟨h3 s m rfl, h4 (by simp)⟩

end GoFloat
