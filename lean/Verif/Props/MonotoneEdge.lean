import Verif.Proofs.Sample
import Verif.Props.Monotone
import Verif.Props.Value
/-
How far the constructors are monotone (C57 of properties.jsonl).
-/
namespace GoFloat
open Spec

/-- An infinity, zero, or a number from `2^lo` on and below `2^hi * (1 + 2^-t)`, the number next to `2^hi` with `t` fraction bits. -/
def GoodTo (lo hi : ℤ) (t : ℕ) (d : Datum) : Prop :=
  (∃ s, d = .inf s) ∨ ∃ s m, d = .num s m ∧ (m = 0 ∨ (2 : ℚ) ^ lo ≤ m ∧ m < (2 : ℚ) ^ hi * (1 + 1 / 2 ^ t))

/-- From what a constructor does with infinities, numbers next to them and numbers in range to its monotonicity. -/
theorem mono_to {R : ℚ → Prop} {lo hi : ℤ} {t : ℕ} {T : Type} {conv : BigFloat → Go (T × Accuracy)} {D : T → Datum} {x y : BigFloat}
    (gx : GoodTo lo hi t x.datum) (gy : GoodTo lo hi t y.datum) (hle : Datum.Le x.datum y.datum)
    (hinf : ∀ z : BigFloat, z = x ∨ z = y → ∀ s, z.datum = .inf s → ∃ f acc, conv z = .ok (f, acc) ∧ D f = .inf s)
    (hnext : ∀ z : BigFloat, z = x ∨ z = y → ∀ s m, z.datum = .num s m → (2 : ℚ) ^ hi ≤ m → m < (2 : ℚ) ^ hi * (1 + 1 / 2 ^ t) →
      ∃ f acc, conv z = .ok (f, acc) ∧ D f = .inf s)
    (hnum : ∀ z : BigFloat, z = x ∨ z = y → ∀ s m, z.datum = .num s m → InRange lo hi m → ∃ f acc r, conv z = .ok (f, acc) ∧
      D f = .num s r ∧ R r ∧ 0 ≤ r ∧ r ≤ m ∧ ∀ q, R q → q ≤ m → q ≤ r) :
    ∃ f acc g acc', conv x = .ok (f, acc) ∧ conv y = .ok (g, acc') ∧ Datum.Le (D f) (D g) := by
  have hP : (0 : ℚ) < 2 ^ hi := zpow_pos (by norm_num) _
  have kind : ∀ z : BigFloat, z = x ∨ z = y → GoodTo lo hi t z.datum →
      (∃ s f acc, (z.datum = .inf s ∨ ∃ m, z.datum = .num s m ∧ (2 : ℚ) ^ hi ≤ m) ∧ conv z = .ok (f, acc) ∧ D f = .inf s) ∨
      (∃ s m f acc r, z.datum = .num s m ∧ InRange lo hi m ∧ conv z = .ok (f, acc) ∧ D f = .num s r ∧ R r ∧ 0 ≤ r ∧ r ≤ m ∧ ∀ q, R q → q ≤ m → q ≤ r) := by
    rintro z hz (⟨s, hd⟩ | ⟨s, m, hd, h⟩)
    · obtain ⟨f, acc, h1, h2⟩ := hinf z hz s hd
      exact Or.inl ⟨s, f, acc, Or.inl hd, h1, h2⟩
    · by_cases hb : (2 : ℚ) ^ hi ≤ m
      · rcases h with h | h
        · rw [h] at hb; exact absurd (hP.trans_le hb) (lt_irrefl _)
        · obtain ⟨f, acc, h1, h2⟩ := hnext z hz s m hd hb h.2
          exact Or.inl ⟨s, f, acc, Or.inr ⟨m, hd, hb⟩, h1, h2⟩
      · have hr : InRange lo hi m := h.imp_right fun h => ⟨h.1, not_le.1 hb⟩
        obtain ⟨f, acc, r, h1, h2⟩ := hnum z hz s m hd hr
        exact Or.inr ⟨s, m, f, acc, r, hd, hr, h1, h2⟩
  have small : ∀ {m : ℚ}, InRange lo hi m → m < 2 ^ hi := by
    rintro m (rfl | h)
    · exact hP
    · exact h.2
  rcases kind x (Or.inl rfl) gx with ⟨s, f, acc, hx, h1, h2⟩ | ⟨s, m, f, acc, r, hx, rx, h1, h2, h3, h4, h5, h6⟩ <;>
  rcases kind y (Or.inr rfl) gy with ⟨s', g, acc', hy, h1', h2'⟩ | ⟨s', m', g, acc', r', hy, ry, h1', h2', h3', h4', h5', h6'⟩ <;>
  refine ⟨f, acc, g, acc', h1, h1', ?_⟩ <;> rw [h2, h2']
  · cases s
    · cases s'
      · exact le_inf (by simp)
      · exfalso
        rcases hx with hx | ⟨m, hx, hm⟩ <;> rcases hy with hy | ⟨m', hy, hm'⟩ <;> rw [hx, hy] at hle
        · unfold Datum.Le Datum.key keyLt at hle; simp at hle
        · exact not_inf_le hle
        · exact not_le_negInf hle
        · rw [le_num] at hle
          simp only [signed, if_true, Bool.false_eq_true, if_false] at hle
          linarith
    · exact negInf_le (by simp)
  · cases s
    · exfalso
      have := small ry
      have := ry.nonneg
      rcases hx with hx | ⟨m, hx, hm⟩ <;> rw [hx, hy] at hle
      · exact not_inf_le hle
      · rw [le_num] at hle
        cases s' <;> simp only [signed, if_true, Bool.false_eq_true, if_false] at hle <;> linarith
    · exact negInf_le (by simp)
  · cases s'
    · exact le_inf (by simp)
    · exfalso
      have := small rx
      have := rx.nonneg
      rcases hy with hy | ⟨m, hy, hm⟩ <;> rw [hx, hy] at hle
      · exact not_le_negInf hle
      · rw [le_num] at hle
        cases s <;> simp only [signed, if_true, Bool.false_eq_true, if_false] at hle <;> linarith
  · rw [hx, hy] at hle
    exact trunc_mono rx.nonneg ry.nonneg h3 h4 h5 h6 h3' h4' h5' h6' (le_num.1 hle)

theorem next_bound (hi : ℤ) {m : ℚ} {t : ℕ} (h : m < (2 : ℚ) ^ hi * (1 + 1 / 2 ^ t)) : m < (2 : ℚ) ^ (hi + 1) := by
  have h1 : (1 : ℚ) / 2 ^ t ≤ 1 := by
    rw [div_le_one (by positivity)]; exact one_le_pow₀ (by norm_num)
  have hP : (0 : ℚ) < 2 ^ hi := zpow_pos (by norm_num) _
  rw [zpow_add₀ (by norm_num), zpow_one]
  exact h.trans_le (mul_le_mul_of_nonneg_left (by linarith) hP.le)

/-- C57 up to the end: `binary16.NewFromBig` is monotone on infinities, zeros and the magnitudes from 2^-24 on and below 65600, where the numbers
from 65536 on become infinities. Missing, because false: what lies beyond both ends (`C57_binary16_ends`). -/
theorem C57_binary16_upto_partial (x y : BigFloat) (hx : x.WF) (hy : y.WF) (gx : GoodTo (-24) 16 10 x.datum) (gy : GoodTo (-24) 16 10 y.datum)
    (hle : Datum.Le x.datum y.datum) :
    ∃ f acc g acc', Binary16.newFromBig x = .ok (f, acc) ∧ Binary16.newFromBig y = .ok (g, acc') ∧
      Datum.Le (half.decode f.bits.toNat) (half.decode g.bits.toNat) := by
  have hwf : ∀ z : BigFloat, z = x ∨ z = y → z.WF := by rintro z (rfl | rfl) <;> assumption
  refine mono_to (R := fun q => ∃ c s, half.decode c = .num s q) (D := fun f : Binary16.Float => half.decode f.bits.toNat)
    gx gy hle ?_ ?_ ?_
  · intro z hz s hd
    obtain ⟨hs, hf⟩ := BigFloat.datum_inf hd
    refine ⟨_, _, Binary16.newFromBig_inf hf, ?_⟩
    rw [hs]
    cases s
    · show half.decode 0x7C00 = _
      simp [Format.decode, half]
    · show half.decode 0xFC00 = _
      simp [Format.decode, half]
  · intro z hz s m hd h1 h2
    obtain ⟨f, acc, e1, -, -, -, -, e2⟩ := Binary16.C66_binary16 z (hwf z hz) (e := 17) hd h1 (next_bound 16 h2)
    refine ⟨f, acc, e1, ?_⟩
    rw [e2 (by norm_num) (by norm_num)]
    exact if_pos h2
  · rintro z hz s m hd (rfl | ⟨h1, h2⟩)
    · obtain ⟨hs, hf, -⟩ := BigFloat.datum_inj_form (hwf z hz) hd
      have hz0 : half.decode (if z.neg then Binary16.NegZero else Binary16.Zero).bits.toNat = .num s 0 := by
        rw [hs]
        cases s
        · show half.decode 0 = _
          simp [Format.decode, half]
        · show half.decode 0x8000 = _
          simp [Format.decode, half]
      exact ⟨_, _, 0, Binary16.newFromBig_zero (hf rfl), hz0, ⟨_, s, hz0⟩, le_rfl, le_rfl, fun q _ h => h⟩
    · obtain ⟨f, acc, r, e1, e2, e3, e4, -⟩ := Binary16.C08_partial z (hwf z hz) hd h1 h2
      exact ⟨f, acc, r, e1, e2, ⟨_, s, e2⟩, decode_nonneg e2, e3, fun q ⟨c, t, hq⟩ h => e4 c t q hq h⟩

example := C57_binary16_upto_partial Sample.x Sample.y Sample.x_wf Sample.y_wf (.inr ⟨_, _, Sample.x_datum, .inr ⟨Sample.le_one (by norm_num) (by norm_num), lt_of_lt_of_le (Sample.lt_two (by norm_num) (by norm_num)) (le_mul_of_one_le_right (zpow_nonneg (by norm_num) _) (by norm_num))⟩⟩) (.inr ⟨_, _, Sample.y_datum, .inr ⟨Sample.le_one (by norm_num) (by norm_num), lt_of_lt_of_le (Sample.lt_two (by norm_num) (by norm_num)) (le_mul_of_one_le_right (zpow_nonneg (by norm_num) _) (by norm_num))⟩⟩) (by rw [Sample.x_datum, Sample.y_datum]; exact Sample.x_le_y)

/-- C57, both ends are sharp for `binary16.NewFromBig`: from 65600 on up to 2^17 the result is a NaN, and right below 2^-24 it is at least 1024 times as
great as for 2^-24. -/
theorem C57_binary16_ends (x : BigFloat) (hx : x.WF) {s : Bool} {m : ℚ} (hd : x.datum = .num s m) :
    ∃ f acc, Binary16.newFromBig x = .ok (f, acc) ∧
      (65600 ≤ m → m < 2 ^ 17 → half.decode f.bits.toNat = .nan s) ∧
      ((1 - 1 / 2 ^ 10) * 2 ^ (-24 : ℤ) ≤ m → m < 2 ^ (-24 : ℤ) → ∃ r, half.decode f.bits.toNat = .num s r ∧ 2 ^ 10 * 2 ^ (-24 : ℤ) ≤ r) := by
  by_cases c1 : 65600 ≤ m ∧ m < 2 ^ 17
  · obtain ⟨f, acc, e1, -, -, -, -, e2⟩ := Binary16.C66_binary16 x hx (e := 17) hd (by norm_num; linarith [c1.1]) (by norm_num; linarith [c1.2])
    refine ⟨f, acc, e1, fun _ _ => ?_, fun _ h => ?_⟩
    · rw [e2 (by norm_num) (by norm_num), if_neg]
      norm_num; linarith [c1.1]
    · norm_num at h; linarith [c1.1]
  by_cases c2 : (1 - 1 / 2 ^ 10) * 2 ^ (-24 : ℤ) ≤ m ∧ m < 2 ^ (-24 : ℤ)
  · obtain ⟨f, acc, e1, e2, -⟩ := Binary16.C66_binary16 x hx (e := -24) hd (by norm_num at c2 ⊢; linarith [c2.1]) c2.2
    refine ⟨f, acc, e1, fun h h' => absurd ⟨h, h'⟩ c1, fun _ _ => ⟨_, e2 le_rfl, ?_⟩⟩
    have f1 : (2 ^ 20 - 2 ^ 10 : ℤ) ≤ ⌊m * 2 ^ ((20 : ℤ) - -24)⌋ := by
      rw [Int.le_floor]; norm_num at c2 ⊢; linarith [c2.1]
    have f2 : ⌊m * 2 ^ ((20 : ℤ) - -24)⌋ < (2 ^ 20 : ℤ) := by
      rw [Int.floor_lt]; norm_num at c2 ⊢; linarith [c2.2]
    have f3 : (2 ^ 10 : ℤ) ≤ ⌊m * 2 ^ ((20 : ℤ) - -24)⌋ % 2 ^ 11 := by omega
    have f4 : ((2 ^ 10 : ℤ) : ℚ) ≤ ((⌊m * 2 ^ ((20 : ℤ) - -24)⌋ % 2 ^ 11 : ℤ) : ℚ) := Int.cast_le.2 f3
    push_cast at f4
    exact mul_le_mul_of_nonneg_right f4 (by positivity)
  obtain ⟨f, acc, h⟩ : ∃ f acc, Binary16.newFromBig x = .ok (f, acc) := by
    cases hf : x.form with
    | zero => exact ⟨_, _, Binary16.newFromBig_zero hf⟩
    | inf => exact ⟨_, _, Binary16.newFromBig_inf hf⟩
    | finite => obtain ⟨b, acc, hr, -⟩ := Binary16.newFromBig_finite hx hf; exact ⟨_, _, hr⟩
  exact ⟨f, acc, h, fun a b => absurd ⟨a, b⟩ c1, fun a b => absurd ⟨a, b⟩ c2⟩

example := C57_binary16_ends Sample.z Sample.z_wf Sample.z_datum

/-- C57 up to the end for `binary128.NewFromBig`: magnitudes from 2^-16494 on and below 2^16384 (1 + 2^-112). -/
theorem C57_binary128_upto_partial (x y : BigFloat) (hx : x.WF) (hy : y.WF) (gx : GoodTo (-16494) 16384 112 x.datum)
    (gy : GoodTo (-16494) 16384 112 y.datum) (hle : Datum.Le x.datum y.datum) :
    ∃ f acc g acc', Binary128.newFromBig x = .ok (f, acc) ∧ Binary128.newFromBig y = .ok (g, acc') ∧
      Datum.Le (quad.decode f.code) (quad.decode g.code) := by
  have hwf : ∀ z : BigFloat, z = x ∨ z = y → z.WF := by rintro z (rfl | rfl) <;> assumption
  refine mono_to (R := fun q => ∃ c s, quad.decode c = .num s q) (D := fun f : Binary128.Float => quad.decode f.code)
    gx gy hle ?_ ?_ ?_
  · intro z hz s hd
    obtain ⟨hs, hf⟩ := BigFloat.datum_inf hd
    refine ⟨_, _, Binary128.newFromBig_inf hf, ?_⟩
    rw [hs]
    exact (Binary128.special_decode s).2
  · intro z hz s m hd h1 h2
    obtain ⟨f, acc, e1, -, -, -, -, e2⟩ := Binary128.C66_binary128 z (hwf z hz) (e := 16385) hd h1 (next_bound 16384 h2)
    refine ⟨f, acc, e1, ?_⟩
    rw [e2 (by norm_num) (by norm_num)]
    exact if_pos h2
  · rintro z hz s m hd (rfl | ⟨h1, h2⟩)
    · obtain ⟨hs, hf, -⟩ := BigFloat.datum_inj_form (hwf z hz) hd
      have hz0 : quad.decode (if z.neg then Binary128.NegZero else Binary128.Zero).code = .num s 0 := by
        rw [hs]; exact (Binary128.special_decode s).1
      exact ⟨_, _, 0, Binary128.newFromBig_zero (hf rfl), hz0, ⟨_, s, hz0⟩, le_rfl, le_rfl, fun q _ h => h⟩
    · obtain ⟨f, acc, r, e1, e2, e3, e4, -⟩ := Binary128.C18_partial z (hwf z hz) hd h1 h2
      exact ⟨f, acc, r, e1, e2, ⟨_, s, e2⟩, decode_nonneg e2, e3, fun q ⟨c, t, hq⟩ h => e4 c t q hq h⟩

example := C57_binary128_upto_partial Sample.x Sample.y Sample.x_wf Sample.y_wf (.inr ⟨_, _, Sample.x_datum, .inr ⟨Sample.le_one (by norm_num) (by norm_num), lt_of_lt_of_le (Sample.lt_two (by norm_num) (by norm_num)) (le_mul_of_one_le_right (zpow_nonneg (by norm_num) _) (by norm_num))⟩⟩) (.inr ⟨_, _, Sample.y_datum, .inr ⟨Sample.le_one (by norm_num) (by norm_num), lt_of_lt_of_le (Sample.lt_two (by norm_num) (by norm_num)) (le_mul_of_one_le_right (zpow_nonneg (by norm_num) _) (by norm_num))⟩⟩) (by rw [Sample.x_datum, Sample.y_datum]; exact Sample.x_le_y)

theorem zpow_split (m : ℚ) (a b : ℤ) {k : ℕ} (h : a + b = k) (c : ℚ) : c * 2 ^ a ≤ m → c * 2 ^ k ≤ m * 2 ^ b := by
  intro hm
  have hb : (0 : ℚ) < 2 ^ b := zpow_pos (by norm_num) _
  have := mul_le_mul_of_nonneg_right hm hb.le
  rwa [mul_assoc, ← zpow_add₀ (by norm_num), h, zpow_natCast] at this

theorem zpow_split_lt (m : ℚ) (a b : ℤ) {k : ℕ} (h : a + b = k) : m < 2 ^ a → m * 2 ^ b < 2 ^ k := by
  intro hm
  have hb : (0 : ℚ) < 2 ^ b := zpow_pos (by norm_num) _
  have := mul_lt_mul_of_pos_right hm hb
  rwa [← zpow_add₀ (by norm_num), h, zpow_natCast] at this

/-- C57, both ends are sharp for `binary128.NewFromBig`: from 2^16384 (1 + 2^-112) on up to 2^16385 the result is a NaN, and right below 2^-16494 it is
at least 2^111 times as great as for 2^-16494. -/
theorem C57_binary128_ends (x : BigFloat) (hx : x.WF) {s : Bool} {m : ℚ} (hd : x.datum = .num s m) :
    ∃ f acc, Binary128.newFromBig x = .ok (f, acc) ∧
      (2 ^ (16384 : ℤ) * (1 + 1 / 2 ^ 112) ≤ m → m < 2 ^ (16385 : ℤ) → quad.decode f.code = .nan s) ∧
      ((1 - 1 / 2 ^ 113) * 2 ^ (-16494 : ℤ) ≤ m → m < 2 ^ (-16494 : ℤ) →
        ∃ r, quad.decode f.code = .num s r ∧ 2 ^ 111 * 2 ^ (-16494 : ℤ) ≤ r) := by
  have hPQ : (2 : ℚ) ^ (-16494 : ℤ) < 2 ^ (16384 : ℤ) := zpow_lt_zpow_right₀ (by norm_num) (by norm_num)
  have hQ : (0 : ℚ) < 2 ^ (16384 : ℤ) := zpow_pos (by norm_num) _
  have hP : (0 : ℚ) < 2 ^ (-16494 : ℤ) := zpow_pos (by norm_num) _
  have hge : 2 ^ (16384 : ℤ) * (1 + 1 / 2 ^ 112) ≤ m → (2 : ℚ) ^ (16384 : ℤ) ≤ m := fun h => by
    generalize (2 : ℚ) ^ (16384 : ℤ) = Q at *
    exact le_trans (le_mul_of_one_le_right hQ.le (by norm_num)) h
  by_cases c1 : 2 ^ (16384 : ℤ) * (1 + 1 / 2 ^ 112) ≤ m ∧ m < 2 ^ (16385 : ℤ)
  · obtain ⟨f, acc, e1, -, -, -, -, e2⟩ := Binary128.C66_binary128 x hx (e := 16385) hd (hge c1.1) c1.2
    refine ⟨f, acc, e1, fun _ _ => ?_, fun _ h => ?_⟩
    · rw [e2 (by norm_num) (by norm_num)]
      exact if_neg (not_lt.2 c1.1)
    · exact absurd (((hge c1.1).trans_lt h).trans hPQ) (lt_irrefl _)
  by_cases c2 : (1 - 1 / 2 ^ 113) * 2 ^ (-16494 : ℤ) ≤ m ∧ m < 2 ^ (-16494 : ℤ)
  · have hlow : (2 : ℚ) ^ ((-16494 : ℤ) - 1) ≤ m := by
      refine le_trans ?_ c2.1
      rw [zpow_sub₀ (by norm_num), zpow_one]
      generalize (2 : ℚ) ^ (-16494 : ℤ) = P at *
      rw [div_le_iff₀ (by norm_num)]
      have : P ≤ ((1 - 1 / 2 ^ 113) * 2) * P := le_mul_of_one_le_left hP.le (by norm_num)
      linarith
    obtain ⟨f, acc, e1, e2, -⟩ := Binary128.C66_binary128 x hx (e := -16494) hd hlow c2.2
    refine ⟨f, acc, e1, fun h h' => absurd ⟨h, h'⟩ c1, fun _ _ => ⟨_, e2 le_rfl, ?_⟩⟩
    have f1 : (2 ^ 224 - 2 ^ 111 : ℤ) ≤ ⌊m * 2 ^ ((224 : ℤ) - -16494)⌋ := by
      rw [Int.le_floor]
      have := zpow_split m (-16494) ((224 : ℤ) - -16494) (k := 224) (by norm_num) _ c2.1
      refine le_trans ?_ this
      norm_num
    have f2 : ⌊m * 2 ^ ((224 : ℤ) - -16494)⌋ < (2 ^ 224 : ℤ) := by
      rw [Int.floor_lt]
      have := zpow_split_lt m (-16494) ((224 : ℤ) - -16494) (k := 224) (by norm_num) c2.2
      rw [Int.cast_pow, Int.cast_ofNat]
      exact this
    generalize ⌊m * 2 ^ ((224 : ℤ) - -16494)⌋ = n at *
    have f3 : (2 ^ 111 : ℤ) ≤ n % 2 ^ 112 := by omega
    have f4 : ((2 ^ 111 : ℤ) : ℚ) ≤ ((n % 2 ^ 112 : ℤ) : ℚ) := Int.cast_le.2 f3
    rw [show (((2 ^ 111 : ℤ)) : ℚ) = 2 ^ 111 by norm_num] at f4
    exact mul_le_mul_of_nonneg_right f4 hP.le
  obtain ⟨f, acc, h⟩ : ∃ f acc, Binary128.newFromBig x = .ok (f, acc) := by
    cases hf : x.form with
    | zero => exact ⟨_, _, Binary128.newFromBig_zero hf⟩
    | inf => exact ⟨_, _, Binary128.newFromBig_inf hf⟩
    | finite => obtain ⟨b, acc, hr, -⟩ := Binary128.newFromBig_finite hx hf; exact ⟨_, _, hr⟩
  exact ⟨f, acc, h, fun a b => absurd ⟨a, b⟩ c1, fun a b => absurd ⟨a, b⟩ c2⟩

example := C57_binary128_ends Sample.z Sample.z_wf Sample.z_datum

/-- C57 up to the end for `float80x86.NewFromBig`: magnitudes from 2^-16445 on and below 2^16384 (1 + 2^-63). -/
theorem C57_float80x86_upto_partial (x y : BigFloat) (hx : x.WF) (hy : y.WF) (gx : GoodTo (-16445) 16384 63 x.datum)
    (gy : GoodTo (-16445) 16384 63 y.datum) (hle : Datum.Le x.datum y.datum) :
    ∃ f acc g acc', Float80x86.newFromBig x = .ok (f, acc) ∧ Float80x86.newFromBig y = .ok (g, acc') ∧ Datum.Le f.val g.val := by
  have hwf : ∀ z : BigFloat, z = x ∨ z = y → z.WF := by rintro z (rfl | rfl) <;> assumption
  refine mono_to (R := fun q => ∃ (g : Float80x86.Float) (s : Bool), g.val = .num s q) (D := fun f : Float80x86.Float => f.val)
    gx gy hle ?_ ?_ ?_
  · intro z hz s hd
    obtain ⟨hs, hf⟩ := BigFloat.datum_inf hd
    refine ⟨_, _, Float80x86.newFromBig_inf hf, ?_⟩
    rw [hs]
    exact (Float80x86.special_val s).2
  · intro z hz s m hd h1 h2
    obtain ⟨f, acc, e1, -, -, -, e2⟩ := Float80x86.C66_float80x86 z (hwf z hz) (e := 16385) hd h1 (next_bound 16384 h2)
    refine ⟨f, acc, e1, ?_⟩
    show decode80 _ _ = _
    rw [e2 (by norm_num) (by norm_num)]
    exact if_pos h2
  · rintro z hz s m hd (rfl | ⟨h1, h2⟩)
    · obtain ⟨hs, hf, -⟩ := BigFloat.datum_inj_form (hwf z hz) hd
      have hz0 : (if z.neg then Float80x86.NegZero else Float80x86.Zero).val = .num s 0 := by
        rw [hs]; exact (Float80x86.special_val s).1
      exact ⟨_, _, 0, Float80x86.newFromBig_zero (hf rfl), hz0, ⟨_, s, hz0⟩, le_rfl, le_rfl, fun q _ h => h⟩
    · obtain ⟨f, acc, r, e1, -, e2, e3, e4, -⟩ := Float80x86.C24_partial z (hwf z hz) hd h1 h2
      exact ⟨f, acc, r, e1, e2, ⟨_, s, e2⟩, val_nonneg e2, e3, fun q ⟨c, t, hq⟩ h => e4 c t q hq h⟩

example := C57_float80x86_upto_partial Sample.x Sample.y Sample.x_wf Sample.y_wf (.inr ⟨_, _, Sample.x_datum, .inr ⟨Sample.le_one (by norm_num) (by norm_num), lt_of_lt_of_le (Sample.lt_two (by norm_num) (by norm_num)) (le_mul_of_one_le_right (zpow_nonneg (by norm_num) _) (by norm_num))⟩⟩) (.inr ⟨_, _, Sample.y_datum, .inr ⟨Sample.le_one (by norm_num) (by norm_num), lt_of_lt_of_le (Sample.lt_two (by norm_num) (by norm_num)) (le_mul_of_one_le_right (zpow_nonneg (by norm_num) _) (by norm_num))⟩⟩) (by rw [Sample.x_datum, Sample.y_datum]; exact Sample.x_le_y)

/-- C57, both ends are sharp for `float80x86.NewFromBig`: from 2^16384 (1 + 2^-63) on up to 2^16385 the result is a NaN, and every number below 2^-16445
except zero becomes the largest subnormal. -/
theorem C57_float80x86_ends (x : BigFloat) (hx : x.WF) {s : Bool} {m : ℚ} (hd : x.datum = .num s m) :
    ∃ f acc, Float80x86.newFromBig x = .ok (f, acc) ∧
      (2 ^ (16384 : ℤ) * (1 + 1 / 2 ^ 63) ≤ m → m < 2 ^ (16385 : ℤ) → f.val = .nan s) ∧
      (0 < m → m < 2 ^ (-16445 : ℤ) → f.val = .num s ((2 ^ 63 - 1) * 2 ^ (-16445 : ℤ))) := by
  have hPQ : (2 : ℚ) ^ (-16445 : ℤ) < 2 ^ (16384 : ℤ) := zpow_lt_zpow_right₀ (by norm_num) (by norm_num)
  have hQ : (0 : ℚ) < 2 ^ (16384 : ℤ) := zpow_pos (by norm_num) _
  have hge : 2 ^ (16384 : ℤ) * (1 + 1 / 2 ^ 63) ≤ m → (2 : ℚ) ^ (16384 : ℤ) ≤ m := fun h => by
    generalize (2 : ℚ) ^ (16384 : ℤ) = Q at *
    exact le_trans (le_mul_of_one_le_right hQ.le (by norm_num)) h
  by_cases c1 : 2 ^ (16384 : ℤ) * (1 + 1 / 2 ^ 63) ≤ m ∧ m < 2 ^ (16385 : ℤ)
  · obtain ⟨f, acc, e1, -, -, -, e2⟩ := Float80x86.C66_float80x86 x hx (e := 16385) hd (hge c1.1) c1.2
    refine ⟨f, acc, e1, fun _ _ => ?_, fun _ h => ?_⟩
    · show decode80 _ _ = _
      rw [e2 (by norm_num) (by norm_num)]
      exact if_neg (not_lt.2 c1.1)
    · exact absurd (((hge c1.1).trans_lt h).trans hPQ) (lt_irrefl _)
  by_cases c2 : 0 < m ∧ m < 2 ^ (-16445 : ℤ)
  · obtain ⟨e, h1, h2⟩ := exists_mem_Ico_zpow c2.1 (by norm_num : (1 : ℚ) < 2)
    have he : e + 1 ≤ -16445 := by
      have := h1.trans_lt c2.2
      rw [zpow_lt_zpow_iff_right₀ (by norm_num)] at this
      omega
    obtain ⟨f, acc, e1, e2, -⟩ := Float80x86.C66_float80x86 x hx (e := e + 1) hd (by rw [add_sub_cancel_right]; exact h1) h2
    exact ⟨f, acc, e1, fun h h' => absurd ⟨h, h'⟩ c1, fun _ _ => e2 he⟩
  obtain ⟨f, acc, h⟩ : ∃ f acc, Float80x86.newFromBig x = .ok (f, acc) := by
    cases hf : x.form with
    | zero => exact ⟨_, _, Float80x86.newFromBig_zero hf⟩
    | inf => exact ⟨_, _, Float80x86.newFromBig_inf hf⟩
    | finite => obtain ⟨b, acc, hr, -⟩ := Float80x86.newFromBig_finite hx hf; exact ⟨_, _, hr⟩
  exact ⟨f, acc, h, fun a b => absurd ⟨a, b⟩ c1, fun a b => absurd ⟨a, b⟩ c2⟩

-- 2^16 and 65599 meet the hypotheses of the first theorem; 65600 and the number right below 2^-24 those of the second
example : GoodTo (-24) 16 10 (bigPow 17).datum := by
  rw [bigPow_datum]
  exact Or.inr ⟨_, _, rfl, Or.inr ⟨by norm_num, by norm_num⟩⟩
example : Binary16.newFromBig { BigFloat.new with prec := 20, form := .finite, mant := 65599, exp := 17 } = .ok (Binary16.Inf, .below) ∧
    Binary16.newFromBig { BigFloat.new with prec := 20, form := .finite, mant := 65600, exp := 17 } = .ok (⟨0x7C01⟩, .exact) ∧
    Binary16.newFromBig { BigFloat.new with prec := 20, form := .finite, mant := 2 ^ 20 - 1, exp := -24 } = .ok (⟨0x07FF⟩, .below) ∧
    Binary16.newFromBig { BigFloat.new with prec := 20, form := .finite, mant := 1, exp := -23 } = .ok (⟨0x0001⟩, .exact) := by
  decide +kernel

end GoFloat
