import Verif.Proofs.Ftoa
import Mathlib.Data.Nat.Prime.Basic
/-
When the exact path of internal/strconv/ftoa.go delivers a shortest decimal.
-/
namespace GoFloat.Strconv
open Spec

variable {d lower upper : Decimal} {lo hi : ℚ} {inc : Bool}

theorem Between.convex {a b c : ℚ} (ha : Between lo hi inc a) (hc : Between lo hi inc c) (h1 : a ≤ b) (h2 : b ≤ c) : Between lo hi inc b :=
  ⟨ha.1.trans h1, h2.trans hc.2.1, fun h => ⟨(ha.2.2 h).1.trans_le h1, h2.trans_lt (hc.2.2 h).2⟩⟩

/-- No multiple of `10^(dp - i)` lies within the bounds. -/
def NoneAt (dp : ℤ) (lo hi : ℚ) (inc : Bool) (i : ℕ) : Prop := ∀ z : ℤ, ¬ Between lo hi inc (z * (10 : ℚ) ^ (dp - i))

theorem _root_.GoFloat.Spec.Prefer.le {u v : ℚ} {w z : ℤ} (h : Prefer u v w z) : |w * u - v| ≤ |z * u - v| := by
  rcases h with rfl | h | h
  · exact le_rfl
  · exact h.le
  · exact h.1.le

/-- A number rounded half to even is preferred to every other. -/
theorem prefer_nearest {u v : ℚ} (hu : 0 < u) {w : ℤ} (h : NearestEven (v / u) w) (z : ℤ) : Prefer u v w z := by
  by_cases hzm : z = w
  · exact Or.inl hzm
  right
  have e0 : |(w : ℚ) * u - v| = |v / u - w| * u := by
    have : (w : ℚ) * u - v = -(v / u - w) * u := by field_simp; ring
    rw [this, abs_mul, abs_neg, abs_of_pos hu]
  have e1 : |(w : ℚ) * u - v| ≤ u / 2 := by
    rw [e0]
    nlinarith [h.1]
  have hd1 : (1 : ℚ) ≤ |(z : ℚ) - w| := by
    have : (1 : ℤ) ≤ |z - w| := Int.one_le_abs (sub_ne_zero.2 hzm)
    exact_mod_cast this
  have : |(z : ℚ) * u - w * u| = |(z : ℚ) - w| * u := by rw [← sub_mul, abs_mul, abs_of_pos hu]
  have e2 : u ≤ |(z : ℚ) * u - w * u| := by rw [this]; nlinarith
  have e3 : |(z : ℚ) * u - w * u| ≤ |(z : ℚ) * u - v| + |(w : ℚ) * u - v| := by
    have := abs_sub_le ((z : ℚ) * u) v (w * u)
    rw [abs_sub_comm v] at this
    exact this
  rcases lt_or_eq_of_le e1 with h1 | h1
  · left; linarith
  · rcases lt_or_eq_of_le (show u / 2 ≤ |(z : ℚ) * u - v| by linarith) with h2 | h2
    · left; linarith
    · refine Or.inr ⟨by linarith, Int.even_iff.1 (h.2 ?_)⟩
      rw [e0] at h1
      have : (|v / u - w| - 1 / 2) * u = 0 := by linarith
      rcases mul_eq_zero.1 this with h3 | h3
      · linarith
      · exact absurd h3 hu.ne'

/-- What one step delivers when it stops is the closest number with that many digits. -/
theorem stop_closest (hd : NormalDec d.d d.dp) (ht : d.trunc = false) (hlo : lo < decValue d.d d.dp) (hhi : decValue d.d d.dp < hi) {i : ℕ}
    {okdown okup : Bool} (hor : okdown = true ∨ okup = true)
    (hdn : okdown = false → ¬ Between lo hi inc ((pre d.d (i + 1) : ℚ) * (10 : ℚ) ^ (d.dp - (i + 1 : ℕ))))
    (hup : okup = false → ¬ Between lo hi inc (((pre d.d (i + 1) : ℚ) + 1) * (10 : ℚ) ^ (d.dp - (i + 1 : ℕ))))
    (rest : Decimal) :
    ∀ r, r = (if (okdown && okup) = true then d.round ((i : ℤ) + 1) else if okdown = true then d.roundDown ((i : ℤ) + 1)
      else if okup = true then d.roundUp ((i : ℤ) + 1) else rest) →
      r.d.length ≤ i + 1 ∧ ∃ w : ℤ, decValue r.d r.dp = w * (10 : ℚ) ^ (d.dp - (i + 1 : ℕ)) ∧
        ∀ z : ℤ, Between lo hi inc (z * (10 : ℚ) ^ (d.dp - (i + 1 : ℕ))) → Prefer ((10 : ℚ) ^ (d.dp - (i + 1 : ℕ))) (decValue d.d d.dp) w z := by
  intro r hr
  rw [show (i : ℤ) + 1 = ((i + 1 : ℕ) : ℤ) by push_cast; rfl] at hr
  rcases lt_or_ge (i + 1) d.d.length with h | h
  · obtain ⟨-, a2, a3, -, -⟩ := roundDown_spec hd h
    obtain ⟨-, b2, b3, -, -⟩ := roundUp_spec hd h
    obtain ⟨-, c2, ⟨m, c3, c4⟩, -, -⟩ := round_spec hd h (y := decValue d.d d.dp) (by unfold Represents; rw [ht]; rfl)
    rw [← pre_take _ _ h.le] at a3 b3
    have l1 := pre_lt hd h
    have l2 := lt_pre hd (i + 1)
    have hself : Between lo hi inc (decValue d.d d.dp) := between_self hlo hhi
    generalize hU : (10 : ℚ) ^ (d.dp - ((i + 1 : ℕ) : ℤ)) = u at *
    have hu : 0 < u := by rw [← hU]; positivity
    generalize pre d.d (i + 1) = P at *
    generalize decValue d.d d.dp = v at *
    have hz : ∀ z : ℤ, z ≤ P ∨ (P : ℤ) + 1 ≤ z := fun z => by omega
    have zle : ∀ z : ℤ, z ≤ (P : ℤ) → (z : ℚ) * u ≤ P * u := fun z h => by
      have : (z : ℚ) ≤ P := by exact_mod_cast h
      exact mul_le_mul_of_nonneg_right this hu.le
    have zge : ∀ z : ℤ, (P : ℤ) + 1 ≤ z → ((P : ℚ) + 1) * u ≤ z * u := fun z h => by
      have : (P : ℚ) + 1 ≤ z := by exact_mod_cast h
      exact mul_le_mul_of_nonneg_right this hu.le
    rw [show ((P + 1 : ℕ) : ℚ) = (P : ℚ) + 1 by push_cast; rfl] at b3
    by_cases hD : okdown = true
    · by_cases hU' : okup = true
      · rw [if_pos (by rw [hD, hU']; rfl)] at hr
        subst hr
        exact ⟨by omega, m, by push_cast; exact c4, fun z _ => prefer_nearest hu c3 z⟩
      · rw [if_neg (by rw [hD]; simpa using hU'), if_pos hD] at hr
        subst hr
        refine ⟨by omega, P, by push_cast; exact a3, fun z hz' => ?_⟩
        rcases hz z with hz1 | hz1
        · rcases eq_or_lt_of_le hz1 with hz2 | hz2
          · exact Or.inl hz2
          · have := mul_lt_mul_of_pos_right (show (z : ℚ) < P by exact_mod_cast hz2) hu
            right; left
            push_cast
            rw [abs_of_nonpos (by linarith), abs_of_nonpos (by linarith)]
            linarith
        · exact absurd (Between.convex hself hz' l2.le (zge z hz1)) (hup (by simpa using hU'))
    · have hU' : okup = true := hor.resolve_left hD
      rw [if_neg (by simp [hD]), if_neg hD, if_pos hU'] at hr
      subst hr
      refine ⟨by omega, P + 1, by push_cast; exact b3, fun z hz' => ?_⟩
      rcases hz z with hz1 | hz1
      · exact absurd (Between.convex hz' hself (zle z hz1) l1.le) (hdn (by simpa using hD))
      · rcases eq_or_lt_of_le hz1 with hz2 | hz2
        · exact Or.inl hz2.symm
        · have := mul_lt_mul_of_pos_right (show (P : ℚ) + 1 < z by exact_mod_cast hz2) hu
          right; left
          push_cast
          rw [abs_of_nonneg (by linarith), abs_of_nonneg (by linarith)]
          linarith
  · have e1 : d.roundDown ((i + 1 : ℕ) : ℤ) = d := if_pos (Or.inr (by
      show ((i + 1 : ℕ) : ℤ) ≥ (d.d.length : ℤ)
      omega))
    have e2 : d.roundUp ((i + 1 : ℕ) : ℤ) = d := if_pos (Or.inr (by
      show ((i + 1 : ℕ) : ℤ) ≥ (d.d.length : ℤ)
      omega))
    have e3 : d.round ((i + 1 : ℕ) : ℤ) = d := by
      rcases round_cases d ((i + 1 : ℕ) : ℤ) with h | h
      · rw [h, e2]
      · rw [h, e1]
    have : r = d := by
      rw [hr, e1, e2, e3]
      rcases hor with h | h <;> rw [h] <;> cases okdown <;> cases okup <;> simp_all
    subst this
    refine ⟨h, pre r.d (i + 1), by push_cast; exact pre_exact h, fun z _ => ?_⟩
    unfold Prefer
    rw [Int.cast_natCast, ← pre_exact h, sub_self, abs_zero]
    by_cases hz : z = pre r.d (i + 1)
    · exact Or.inl hz
    · right; left
      rw [abs_pos, sub_ne_zero, pre_exact h]
      intro hc
      have hu : (10 : ℚ) ^ (r.dp - ((i + 1 : ℕ) : ℤ)) ≠ 0 := (zpow_pos (by norm_num) _).ne'
      have := mul_right_cancel₀ hu hc
      exact hz (by exact_mod_cast this)

/-- What is known of the result of the loop: nothing with fewer digits lies within the bounds; and the result is the closest
with its number of digits (the even one if two are), unless the bounds are excluded and the upper bound has fewer digits than
everything between them. Then it is the number cut to this number of digits. -/
def Outcome (d r : Decimal) (lo hi : ℚ) (inc : Bool) : Prop :=
  ∃ i : ℕ, r.d.length ≤ i + 1 ∧ (1 ≤ i → NoneAt d.dp lo hi inc i) ∧
    ∃ w : ℤ, decValue r.d r.dp = w * (10 : ℚ) ^ (d.dp - (i + 1 : ℕ)) ∧
    ((∀ z : ℤ, Between lo hi inc (z * (10 : ℚ) ^ (d.dp - (i + 1 : ℕ))) → Prefer ((10 : ℚ) ^ (d.dp - (i + 1 : ℕ))) (decValue d.d d.dp) w z) ∧
      (inc = false → ¬ FitsDigits i hi) ∨
    inc = false ∧ 1 ≤ i ∧ FitsDigits i hi ∧ w * (10 : ℚ) ^ (d.dp - (i + 1 : ℕ)) ≤ decValue d.d d.dp ∧
      decValue d.d d.dp < (w + 1) * (10 : ℚ) ^ (d.dp - (i + 1 : ℕ)))

/-- The digits of the lower bound agree with those of the number, and it is not included: rounding down leads out. -/
theorem lower_out (hl : NormalDec lower.d lower.dp) (hln : lower.d ≠ []) (hdp : lower.dp = d.dp) {i : ℕ}
    (hpre : pre lower.d i = pre d.d i) (hl1 : lower.d.getD i 0 = d.d.getD i 0) (hl2 : inc = true → i + 1 ≠ lower.d.length)
    (hnone : 1 ≤ i → NoneAt d.dp (decValue lower.d lower.dp) hi inc i) :
    ¬ Between (decValue lower.d lower.dp) hi inc ((pre d.d (i + 1) : ℚ) * (10 : ℚ) ^ (d.dp - (i + 1 : ℕ))) := by
  intro hb
  have he : pre lower.d (i + 1) = pre d.d (i + 1) := by rw [pre, pre, hpre, hl1]
  have h1 := pre_le hl (i + 1)
  rw [he, hdp] at h1
  have hinc : inc = true := by
    by_contra hc
    have := (hb.2.2 (by simpa using hc)).1
    rw [hdp] at this
    linarith
  have hlen : lower.d.length ≤ i + 1 := by
    by_contra hc
    have := pre_lt hl (i := i + 1) (by omega)
    rw [he] at this
    have h2 := hb.1
    rw [hdp] at this h2
    linarith
  have hlen' : lower.d.length ≤ i := by have := hl2 hinc; omega
  have hi1 : 1 ≤ i := by
    have : lower.d.length ≠ 0 := fun hc => hln (List.length_eq_zero_iff.1 hc)
    omega
  apply hnone hi1 (pre lower.d i)
  have e := pre_exact (ds := lower.d) (dp := lower.dp) hlen'
  rw [hdp] at e
  push_cast
  rw [← e, hdp]
  have : decValue lower.d d.dp ≤ hi := by
    rw [← hdp]
    exact hb.1.trans hb.2.1
  exact ⟨le_rfl, this, fun hc => by rw [hinc] at hc; exact absurd hc (by decide)⟩

/-- The next digit of the upper bound does not allow rounding up. -/
theorem upper_out (hup : NormalDec upper.d upper.dp) (hdp : upper.dp = d.dp) {i : ℕ} {lo : ℚ}
    (hpre : pre upper.d i = pre d.d i)
    (h : d.d.getD i 0 = upper.d.getD i 0 ∨ inc = false ∧ upper.d.getD i 0 ≤ d.d.getD i 0 + 1 ∧ upper.d.length ≤ i + 1) :
    ¬ Between lo (decValue upper.d upper.dp) inc (((pre d.d (i + 1) : ℚ) + 1) * (10 : ℚ) ^ (d.dp - (i + 1 : ℕ))) := by
  intro hb
  have hu : (0 : ℚ) < (10 : ℚ) ^ (d.dp - ((i + 1 : ℕ) : ℤ)) := zpow_pos (by norm_num) _
  rcases h with h | ⟨h1, h2, h3⟩
  · have e : pre upper.d (i + 1) = pre d.d (i + 1) := by rw [pre, pre, hpre, h]
    have := lt_pre hup (i + 1)
    rw [e] at this
    have h2 := hb.2.1
    rw [hdp] at h2 this
    linarith
  · have e := pre_exact (ds := upper.d) (dp := upper.dp) h3
    have hle : pre upper.d (i + 1) ≤ pre d.d (i + 1) + 1 := by
      rw [pre, pre, hpre]
      omega
    have hleq : (pre upper.d (i + 1) : ℚ) ≤ pre d.d (i + 1) + 1 := by exact_mod_cast hle
    have h2 := (hb.2.2 h1).2
    rw [e, hdp] at h2
    have := mul_le_mul_of_nonneg_right hleq hu.le
    linarith

theorem fits_mono {a b : ℕ} {q : ℚ} (h : a ≤ b) (hq : FitsDigits a q) : FitsDigits b q := by
  obtain ⟨m, e, h1, h2⟩ := hq
  exact ⟨m, e, lt_of_lt_of_le h1 (Nat.pow_le_pow_right (by norm_num) h), h2⟩

theorem fits_dec {ds : List ℕ} {dp : ℤ} (h : ∀ x ∈ ds, x < 10) : FitsDigits ds.length (decValue ds dp) :=
  ⟨dv ds, dp - ds.length, dv_lt h, decValue_eq _ _⟩

theorem not_fits_zero {q : ℚ} (hq : 0 < q) : ¬ FitsDigits 0 q := by
  rintro ⟨a, e, ha, rfl⟩
  have : a = 0 := by simpa using ha
  subst this
  simp at hq

/-- The digits of a normal decimal are as few as possible. -/
theorem normal_least {ds : List ℕ} {dp : ℤ} (hd : NormalDec ds dp) (hne : ds ≠ []) {n : ℕ} (h : FitsDigits n (decValue ds dp)) : ds.length ≤ n := by
  rw [decValue_eq] at h
  have h1 := fits_lt (dv_mod hd.digit hd.last hne) h
  have h2 := lt_of_le_of_lt (dv_ge hd.head hne) h1
  have h3 := (Nat.pow_lt_pow_iff_right (by norm_num : 1 < 10)).1 h2
  omega

/-- Once the excluded upper bound has no digits left the loop only looks at the lower bound. As the number lies in the
middle, rounding up cannot be possible where rounding down is not. -/
theorem loop_exc (hd : NormalDec d.d d.dp) (hl : NormalDec lower.d lower.dp) (hlo : decValue lower.d lower.dp < decValue d.d d.dp)
    (hhi : decValue d.d d.dp < hi) (hdp : lower.dp = d.dp) (hinc : inc = false)
    (hsym : decValue d.d d.dp - decValue lower.d lower.dp = hi - decValue d.d d.dp) {j : ℕ} (hj : 1 ≤ j) (hjl : upper.d.length ≤ j)
    (hfit : FitsDigits j hi) {H : ℤ} (hH : hi = H * (10 : ℚ) ^ (d.dp - j)) :
    ∀ n i, j ≤ i → n + i = d.d.length → pre lower.d i = pre d.d i → NoneAt d.dp (decValue lower.d lower.dp) hi inc i →
      Outcome d (shortestLoop d lower upper inc n i) (decValue lower.d lower.dp) hi inc
  | 0, i, hji, hi', _, hnone => absurd (show Between _ _ _ _ from by
      rw [Int.cast_natCast, ← pre_exact (ds := d.d) (dp := d.dp) (i := i) (by omega)]
      exact between_self hlo hhi) (hnone (pre d.d i))
  | n + 1, i, hji, hi', hpl, hnone => by
    unfold shortestLoop
    simp only
    have h0 : upper.d.getD i 0 = 0 := by
      rw [List.getD_eq_getElem?_getD, List.getElem?_eq_none (by omega)]; rfl
    have hU : (decide (d.d.getD i 0 ≠ upper.d.getD i 0) &&
        (inc || decide (d.d.getD i 0 + 1 < upper.d.getD i 0) || decide (i + 1 < upper.nd))) = false := by
      have : ¬ i + 1 < upper.nd := by
        show ¬ i + 1 < upper.d.length
        omega
      rw [h0, hinc]
      simp [this]
    have hD : (decide (lower.d.getD i 0 ≠ d.d.getD i 0) || inc && decide (i + 1 = lower.nd)) = decide (lower.d.getD i 0 ≠ d.d.getD i 0) := by
      rw [hinc]; simp
    rw [hU, hD, Bool.and_false, if_neg (by decide)]
    by_cases hlm : lower.d.getD i 0 = d.d.getD i 0
    · rw [if_neg (by simpa using hlm), if_neg (by decide)]
      refine loop_exc hd hl hlo hhi hdp hinc hsym hj hjl hfit hH n (i + 1) (by omega) (by omega) (by rw [pre, pre, hpl, hlm]) ?_
      intro z hz
      have hp : pre lower.d (i + 1) = pre d.d (i + 1) := by rw [pre, pre, hpl, hlm]
      have a1 := pre_le hl (i + 1)
      have a2 := lt_pre hd (i + 1)
      have a3 := pre_le hd (i + 1)
      rw [hp, hdp] at a1
      obtain ⟨b1, b2⟩ := hz.2.2 hinc
      have hu : (0 : ℚ) < (10 : ℚ) ^ (d.dp - ((i + 1 : ℕ) : ℤ)) := zpow_pos (by norm_num) _
      have hH' : hi = ((H * 10 ^ (i + 1 - j) : ℤ) : ℚ) * (10 : ℚ) ^ (d.dp - ((i + 1 : ℕ) : ℤ)) := by
        rw [hH]
        push_cast
        rw [mul_assoc, ← zpow_natCast (10 : ℚ) (i + 1 - j), ← zpow_add₀ (by norm_num)]
        congr 2
        push_cast [Nat.cast_sub (show j ≤ i + 1 by omega)]
        ring
      rw [hH'] at b2 hsym
      rw [hdp] at b1 hsym
      generalize (10 : ℚ) ^ (d.dp - ((i + 1 : ℕ) : ℤ)) = u at *
      generalize H * 10 ^ (i + 1 - j) = A at *
      generalize pre d.d (i + 1) = P at *
      have c1 : (P : ℤ) < z := by
        have : (P : ℚ) * u < z * u := by linarith
        exact_mod_cast lt_of_mul_lt_mul_right this hu.le
      have c2 : z < A := by exact_mod_cast lt_of_mul_lt_mul_right b2 hu.le
      have c3 : ((P : ℚ) + 2) * u ≤ A * u := by
        apply mul_le_mul_of_nonneg_right _ hu.le
        exact_mod_cast (show (P : ℤ) + 2 ≤ A by omega)
      linarith
    · rw [if_pos (by simpa using hlm)]
      rw [show (i : ℤ) + 1 = ((i + 1 : ℕ) : ℤ) by push_cast; rfl]
      have hcut := pre_le hd (i + 1)
      have hlt := lt_pre hd (i + 1)
      suffices hs : (d.roundDown ((i + 1 : ℕ) : ℤ)).d.length ≤ i + 1 ∧
          decValue (d.roundDown ((i + 1 : ℕ) : ℤ)).d (d.roundDown ((i + 1 : ℕ) : ℤ)).dp = (pre d.d (i + 1) : ℚ) * (10 : ℚ) ^ (d.dp - (i + 1 : ℕ)) from
        ⟨i, hs.1, fun _ => hnone, pre d.d (i + 1), by push_cast; exact_mod_cast hs.2,
          Or.inr ⟨hinc, by omega, fits_mono hji hfit, by push_cast; exact_mod_cast hcut, by push_cast; exact_mod_cast hlt⟩⟩
      rcases lt_or_ge (i + 1) d.d.length with h | h
      · obtain ⟨-, a2, a3, -, -⟩ := roundDown_spec hd h
        rw [← pre_take _ _ h.le] at a3
        exact ⟨a2, a3⟩
      · have e1 : d.roundDown ((i + 1 : ℕ) : ℤ) = d := if_pos (Or.inr (by
          show ((i + 1 : ℕ) : ℤ) ≥ (d.d.length : ℤ)
          omega))
        rw [e1]; exact ⟨h, pre_exact h⟩

theorem loop_min (hd : NormalDec d.d d.dp) (hne : d.d ≠ []) (ht : d.trunc = false) (hl : NormalDec lower.d lower.dp) (hln : lower.d ≠ [])
    (hup : NormalDec upper.d upper.dp) (hlo : decValue lower.d lower.dp < decValue d.d d.dp)
    (hhi : decValue d.d d.dp < decValue upper.d upper.dp) (hdp : lower.dp = d.dp) (hdpu : upper.dp = d.dp)
    (hsym : inc = false → decValue d.d d.dp - decValue lower.d lower.dp = decValue upper.d upper.dp - decValue d.d d.dp) :
    ∀ n i, n + i = d.d.length → pre lower.d i = pre d.d i → pre upper.d i = pre d.d i →
      (1 ≤ i → NoneAt d.dp (decValue lower.d lower.dp) (decValue upper.d upper.dp) inc i) →
      Outcome d (shortestLoop d lower upper inc n i) (decValue lower.d lower.dp) (decValue upper.d upper.dp) inc
  | 0, i, hi, _, _, hnone => absurd (show Between _ _ _ _ from by
      rw [Int.cast_natCast, ← pre_exact (ds := d.d) (dp := d.dp) (i := i) (by omega)]
      exact between_self hlo hhi) (hnone (by
        have : d.d.length ≠ 0 := fun hc => hne (List.length_eq_zero_iff.1 hc)
        omega) (pre d.d i))
  | n + 1, i, hi, hpl, hpu, hnone => by
    unfold shortestLoop
    simp only
    generalize hD : (decide (lower.d.getD i 0 ≠ d.d.getD i 0) || inc && decide (i + 1 = lower.nd)) = okdown
    generalize hU : (decide (d.d.getD i 0 ≠ upper.d.getD i 0) &&
      (inc || decide (d.d.getD i 0 + 1 < upper.d.getD i 0) || decide (i + 1 < upper.nd))) = okup
    have hDf : okdown = false → lower.d.getD i 0 = d.d.getD i 0 ∧ (inc = true → i + 1 ≠ lower.d.length) := by
      intro h
      rw [h] at hD
      simp only [Bool.or_eq_false_iff, Bool.and_eq_false_iff, decide_eq_false_iff_not, not_not] at hD
      refine ⟨hD.1, fun hc => ?_⟩
      rcases hD.2 with h' | h'
      · rw [hc] at h'; exact absurd h' (by decide)
      · exact h'
    have hUf : okup = false → d.d.getD i 0 = upper.d.getD i 0 ∨
        inc = false ∧ upper.d.getD i 0 ≤ d.d.getD i 0 + 1 ∧ upper.d.length ≤ i + 1 := by
      intro h
      rw [h] at hU
      simp only [Bool.or_eq_false_iff, Bool.and_eq_false_iff, decide_eq_false_iff_not, not_not] at hU
      rcases hU with h' | h'
      · exact Or.inl h'
      · have h2 := h'.1.2
        have h3 := h'.2
        change ¬ i + 1 < upper.d.length at h3
        exact Or.inr ⟨h'.1.1, by omega, by omega⟩
    by_cases hor : okdown = true ∨ okup = true
    · obtain ⟨s1, w, s2, s3⟩ := stop_closest (inc := inc) hd ht hlo hhi hor
        (fun h => lower_out hl hln hdp hpl (hDf h).1 (hDf h).2 hnone)
        (fun h => upper_out hup hdpu hpu (hUf h)) (shortestLoop d lower upper inc n (i + 1)) _ rfl
      refine ⟨i, s1, hnone, w, s2, Or.inl ⟨s3, fun _ hf => ?_⟩⟩
      have hun : upper.d ≠ [] := ne_nil_of_pos (dp := upper.dp) (lt_trans (lt_of_lt_of_le (zpow_pos (by norm_num) _) (decValue_pos hd hne).1) hhi)
      have h1 := normal_least hup hun hf
      have h2 := pre_exact (ds := upper.d) (dp := upper.dp) h1
      rw [hpu] at h2
      have h3 := pre_le hd i
      rw [h2, hdpu] at hhi
      linarith
    · have hD0 : okdown = false := by cases okdown <;> simp_all
      have hU0 : okup = false := by cases okup <;> simp_all
      rw [hD0, hU0]
      rw [if_neg (by decide), if_neg (by decide), if_neg (by decide)]
      have hlo' := lower_out (hi := decValue upper.d upper.dp) hl hln hdp hpl (hDf hD0).1 (hDf hD0).2 hnone
      have hup' := upper_out (lo := decValue lower.d lower.dp) hup hdpu hpu (hUf hU0)
      have hself : Between (decValue lower.d lower.dp) (decValue upper.d upper.dp) inc (decValue d.d d.dp) := between_self hlo hhi
      have hu : (0 : ℚ) < (10 : ℚ) ^ (d.dp - ((i + 1 : ℕ) : ℤ)) := zpow_pos (by norm_num) _
      have hnone' : NoneAt d.dp (decValue lower.d lower.dp) (decValue upper.d upper.dp) inc (i + 1) := by
        intro z hz
        rcases (show z ≤ (pre d.d (i + 1) : ℤ) ∨ (pre d.d (i + 1) : ℤ) + 1 ≤ z by omega) with hz1 | hz1
        · have : (z : ℚ) ≤ pre d.d (i + 1) := by exact_mod_cast hz1
          exact hlo' (Between.convex hz hself (mul_le_mul_of_nonneg_right this hu.le) (pre_le hd (i + 1)))
        · have : (pre d.d (i + 1) : ℚ) + 1 ≤ z := by exact_mod_cast hz1
          exact hup' (Between.convex hself hz (lt_pre hd (i + 1)).le (mul_le_mul_of_nonneg_right this hu.le))
      rcases hUf hU0 with h | ⟨h1, h2, h3⟩
      · exact loop_min hd hne ht hl hln hup hlo hhi hdp hdpu hsym n (i + 1) (by omega) (by rw [pre, pre, hpl, (hDf hD0).1]) (by rw [pre, pre, hpu, h])
          (fun _ => hnone')
      · refine loop_exc (H := pre upper.d (i + 1)) hd hl hlo hhi hdp h1 (hsym h1) (j := i + 1) (by omega) h3 (fits_mono h3 (fits_dec hup.digit)) ?_ n (i + 1) le_rfl (by omega)
          (by rw [pre, pre, hpl, (hDf hD0).1]) hnone'
        have := pre_exact (ds := upper.d) (dp := upper.dp) h3
        rw [this, hdpu]
        push_cast
        rfl

/-- The whole loop. -/
theorem shortest_min (hd : NormalDec d.d d.dp) (ht : d.trunc = false) (hne : d.d ≠ []) (hl : NormalDec lower.d lower.dp)
    (hup : NormalDec upper.d upper.dp)
    (hlo : decValue lower.d lower.dp < decValue d.d d.dp) (hhi : decValue d.d d.dp < decValue upper.d upper.dp)
    (hlo2 : decValue d.d d.dp ≤ 2 * decValue lower.d lower.dp) (hhi2 : 2 * decValue upper.d upper.dp ≤ 3 * decValue d.d d.dp)
    (hbig : inc = false → decValue upper.d upper.dp = (10 : ℚ) ^ d.dp → 9 * decValue upper.d upper.dp ≤ 10 * decValue d.d d.dp)
    (hsym : inc = false → decValue d.d d.dp - decValue lower.d lower.dp = decValue upper.d upper.dp - decValue d.d d.dp) :
    Outcome d (shortestLoop d lower upper inc d.nd 0) (decValue lower.d lower.dp) (decValue upper.d upper.dp) inc := by
  have hv : 0 < decValue d.d d.dp := lt_of_lt_of_le (zpow_pos (by norm_num) _) (decValue_pos hd hne).1
  have hln : lower.d ≠ [] := ne_nil_of_pos (dp := lower.dp) (by linarith)
  have hun : upper.d ≠ [] := ne_nil_of_pos (dp := upper.dp) (by linarith)
  have h1 := dp_le_of_le hl hd hln hne hlo.le
  have h2 := dp_le_of_le hd hup hne hun hhi.le
  obtain ⟨hv1, hv2⟩ := decValue_pos hd hne
  obtain ⟨hL1, hL2⟩ := decValue_pos hl hln
  obtain ⟨hU1, hU2⟩ := decValue_pos hup hun
  have h10 : (10 : ℚ) ^ d.dp = 10 * (10 : ℚ) ^ (d.dp - 1) := by
    rw [← zpow_one_add₀ ten_ne]; congr 1; ring
  have hpos : (0 : ℚ) < (10 : ℚ) ^ (d.dp - 1) := zpow_pos (by norm_num) _
  have hnd : d.nd = d.d.length := rfl
  obtain ⟨n, hn⟩ : ∃ n, d.d.length = n + 1 := ⟨d.d.length - 1, by
    have : d.d.length ≠ 0 := fun hc => hne (List.length_eq_zero_iff.1 hc)
    omega⟩
  have hone : d.dp - ((0 + 1 : ℕ) : ℤ) = d.dp - 1 := by push_cast; ring
  rcases eq_or_lt_of_le h1 with hdp | hdp
  · rcases eq_or_lt_of_le h2 with hdpu | hdpu
    · exact loop_min hd hne ht hl hln hup hlo hhi hdp hdpu.symm hsym _ 0 (by rw [hnd, add_zero]) rfl rfl (fun h => absurd h (by norm_num))
    · -- the upper bound has one more digit before the point
      have hUle : (10 : ℚ) ^ d.dp ≤ (10 : ℚ) ^ (upper.dp - 1) := zpow_le_zpow_right₀ (by norm_num) (by omega)
      have hudp : upper.dp = d.dp + 1 := by
        have : upper.dp ≤ d.dp + 1 := by
          apply dp_le_of_lt hup hun
          rw [zpow_add_one₀ ten_ne]
          linarith
        omega
      have hu1 : pre upper.d 1 = 1 := by
        have a1 := lt_pre hup 1
        have a2 := pre_le hup 1
        rw [hudp, show d.dp + 1 - ((1 : ℕ) : ℤ) = d.dp by push_cast; ring, ← hudp] at a1 a2
        have b1 : (1 : ℚ) * (10 : ℚ) ^ d.dp < ((pre upper.d 1 : ℚ) + 1) * (10 : ℚ) ^ d.dp := by linarith
        have b2 : (pre upper.d 1 : ℚ) * (10 : ℚ) ^ d.dp < 2 * (10 : ℚ) ^ d.dp := by linarith
        have hp : (0 : ℚ) ≤ (10 : ℚ) ^ d.dp := (zpow_pos (by norm_num) _).le
        have c1 := lt_of_mul_lt_mul_right b1 hp
        have c2 := lt_of_mul_lt_mul_right b2 hp
        have d1 : 1 < pre upper.d 1 + 1 := by exact_mod_cast c1
        have d2 : pre upper.d 1 < 2 := by exact_mod_cast c2
        omega
      have hm6 : 6 ≤ pre d.d 1 := by
        have a1 := lt_pre hd 1
        rw [show d.dp - ((1 : ℕ) : ℤ) = d.dp - 1 by push_cast; ring] at a1
        have b1 : (6 : ℚ) * (10 : ℚ) ^ (d.dp - 1) < ((pre d.d 1 : ℚ) + 1) * (10 : ℚ) ^ (d.dp - 1) := by linarith
        have c1 := lt_of_mul_lt_mul_right b1 hpos.le
        have d1 : 6 < pre d.d 1 + 1 := by exact_mod_cast c1
        omega
      -- the upper bound is a power of ten
      have hexact : upper.d.length ≤ 1 → decValue upper.d upper.dp = (10 : ℚ) ^ d.dp := by
        intro h
        rw [pre_exact h, hu1, hudp, Nat.cast_one, one_mul, show d.dp + 1 - ((1 : ℕ) : ℤ) = d.dp by push_cast; ring]
      have h9 : inc = false → upper.d.length ≤ 1 → 9 ≤ pre d.d 1 := by
        intro hinc hlen
        have a0 := hbig hinc (hexact hlen)
        rw [hexact hlen] at a0
        have a1 := lt_pre hd 1
        rw [show d.dp - ((1 : ℕ) : ℤ) = d.dp - 1 by push_cast; ring] at a1
        have b1 : (9 : ℚ) * (10 : ℚ) ^ (d.dp - 1) < ((pre d.d 1 : ℚ) + 1) * (10 : ℚ) ^ (d.dp - 1) := by linarith
        have c1 := lt_of_mul_lt_mul_right b1 hpos.le
        have d1 : 9 < pre d.d 1 + 1 := by exact_mod_cast c1
        omega
      rw [hnd, hn]
      unfold shortestLoop
      simp only
      generalize hD : (decide (lower.d.getD 0 0 ≠ d.d.getD 0 0) || inc && decide (0 + 1 = lower.nd)) = okdown
      generalize hU : (decide (d.d.getD 0 0 ≠ upper.d.getD 0 0) &&
        (inc || decide (d.d.getD 0 0 + 1 < upper.d.getD 0 0) || decide (0 + 1 < upper.nd))) = okup
      have hDf : okdown = false → lower.d.getD 0 0 = d.d.getD 0 0 ∧ (inc = true → 0 + 1 ≠ lower.d.length) := by
        intro h
        rw [h] at hD
        simp only [Bool.or_eq_false_iff, Bool.and_eq_false_iff, decide_eq_false_iff_not, not_not] at hD
        refine ⟨hD.1, fun hc => ?_⟩
        rcases hD.2 with h' | h'
        · rw [hc] at h'; exact absurd h' (by decide)
        · exact h'
      have hUf : okup = false → inc = false ∧ upper.d.length ≤ 1 := by
        intro h
        rw [h] at hU
        simp only [Bool.or_eq_false_iff, Bool.and_eq_false_iff, decide_eq_false_iff_not, not_not] at hU
        rw [pre_one] at hu1 hm6
        rcases hU with h' | h'
        · omega
        · have h3 := h'.2
          change ¬ 0 + 1 < upper.d.length at h3
          exact ⟨h'.1.1, by omega⟩
      have hupout : okup = false → ¬ Between (decValue lower.d lower.dp) (decValue upper.d upper.dp) inc
          (((pre d.d (0 + 1) : ℚ) + 1) * (10 : ℚ) ^ (d.dp - (0 + 1 : ℕ))) := by
        intro h hb
        obtain ⟨u1, u2⟩ := hUf h
        have a1 := (hb.2.2 u1).2
        rw [hexact u2, hone, h10, zero_add] at a1
        have a2 : (9 : ℚ) ≤ pre d.d 1 := by exact_mod_cast h9 u1 u2
        nlinarith
      have hnone0 : (1 ≤ 0 → NoneAt d.dp (decValue lower.d lower.dp) (decValue upper.d upper.dp) inc 0) := fun h => absurd h (by norm_num)
      have hdnout : okdown = false → ¬ Between (decValue lower.d lower.dp) (decValue upper.d upper.dp) inc
          ((pre d.d (0 + 1) : ℚ) * (10 : ℚ) ^ (d.dp - (0 + 1 : ℕ))) :=
        fun h => lower_out hl hln hdp rfl (hDf h).1 (hDf h).2 hnone0
      by_cases hor : okdown = true ∨ okup = true
      · obtain ⟨s1, w, s2, s3⟩ := stop_closest (inc := inc) hd ht hlo hhi hor hdnout hupout (shortestLoop d lower upper inc n (0 + 1)) _ rfl
        exact ⟨0, s1, hnone0, w, s2, Or.inl ⟨s3, fun _ hf => not_fits_zero (hv.trans hhi) hf⟩⟩
      · have hD0 : okdown = false := by cases okdown <;> simp_all
        have hU0 : okup = false := by cases okup <;> simp_all
        rw [hD0, hU0, if_neg (by decide), if_neg (by decide), if_neg (by decide)]
        obtain ⟨u1, u2⟩ := hUf hU0
        refine loop_exc (H := 10) hd hl hlo hhi hdp u1 (hsym u1) (j := 1) le_rfl u2 (fits_mono u2 (fits_dec hup.digit)) ?_ n (0 + 1) le_rfl (by omega)
          (by rw [zero_add, pre_one, pre_one, (hDf hD0).1]) ?_
        · rw [hexact u2, h10]
          push_cast
          rfl
        intro z hz
        have hself : Between (decValue lower.d lower.dp) (decValue upper.d upper.dp) inc (decValue d.d d.dp) := between_self hlo hhi
        have hu : (0 : ℚ) < (10 : ℚ) ^ (d.dp - ((0 + 1 : ℕ) : ℤ)) := zpow_pos (by norm_num) _
        rcases (show z ≤ (pre d.d (0 + 1) : ℤ) ∨ (pre d.d (0 + 1) : ℤ) + 1 ≤ z by omega) with hz1 | hz1
        · have : (z : ℚ) ≤ pre d.d (0 + 1) := by exact_mod_cast hz1
          exact hdnout hD0 (Between.convex hz hself (mul_le_mul_of_nonneg_right this hu.le) (pre_le hd (0 + 1)))
        · have : (pre d.d (0 + 1) : ℚ) + 1 ≤ z := by exact_mod_cast hz1
          exact hupout hU0 (Between.convex hself hz (lt_pre hd (0 + 1)).le (mul_le_mul_of_nonneg_right this hu.le))
  · -- the lower bound has one digit less before the point
    have hLlt : decValue lower.d lower.dp < (10 : ℚ) ^ (d.dp - 1) :=
      lt_of_lt_of_le hL2 (zpow_le_zpow_right₀ (by norm_num) (by omega))
    have hudp : upper.dp = d.dp := by
      have : upper.dp ≤ d.dp := dp_le_of_lt hup hun (by linarith)
      omega
    have hm1 : pre d.d 1 = 1 := by
      have a1 := lt_pre hd 1
      have a2 := pre_le hd 1
      rw [show d.dp - ((1 : ℕ) : ℤ) = d.dp - 1 by push_cast; ring] at a1 a2
      have b1 : (1 : ℚ) * (10 : ℚ) ^ (d.dp - 1) < ((pre d.d 1 : ℚ) + 1) * (10 : ℚ) ^ (d.dp - 1) := by linarith
      have b2 : (pre d.d 1 : ℚ) * (10 : ℚ) ^ (d.dp - 1) < 2 * (10 : ℚ) ^ (d.dp - 1) := by linarith
      have c1 := lt_of_mul_lt_mul_right b1 hpos.le
      have c2 := lt_of_mul_lt_mul_right b2 hpos.le
      have d1 : 1 < pre d.d 1 + 1 := by exact_mod_cast c1
      have d2 : pre d.d 1 < 2 := by exact_mod_cast c2
      omega
    have hldp : lower.dp = d.dp - 1 := by
      have : d.dp - 2 < lower.dp := lt_dp_of_le hl hln (by
        have : (10 : ℚ) ^ (d.dp - 1) = 10 * (10 : ℚ) ^ (d.dp - 2) := by
          rw [← zpow_one_add₀ ten_ne]; congr 1; ring
        have hp2 : (0 : ℚ) < (10 : ℚ) ^ (d.dp - 2) := zpow_pos (by norm_num) _
        linarith)
      omega
    have hl5 : 5 ≤ pre lower.d 1 := by
      have a1 := lt_pre hl 1
      have e1 : (10 : ℚ) ^ (d.dp - 1) = 10 * (10 : ℚ) ^ (lower.dp - ((1 : ℕ) : ℤ)) := by
        rw [← zpow_one_add₀ ten_ne]; congr 1; push_cast; omega
      have hp2 : (0 : ℚ) < (10 : ℚ) ^ (lower.dp - ((1 : ℕ) : ℤ)) := zpow_pos (by norm_num) _
      have b1 : (5 : ℚ) * (10 : ℚ) ^ (lower.dp - ((1 : ℕ) : ℤ)) < ((pre lower.d 1 : ℚ) + 1) * (10 : ℚ) ^ (lower.dp - ((1 : ℕ) : ℤ)) := by
        linarith
      have c1 := lt_of_mul_lt_mul_right b1 hp2.le
      have d1 : 5 < pre lower.d 1 + 1 := by exact_mod_cast c1
      omega
    rw [hnd, hn]
    unfold shortestLoop
    simp only
    generalize hD : (decide (lower.d.getD 0 0 ≠ d.d.getD 0 0) || inc && decide (0 + 1 = lower.nd)) = okdown
    generalize hU : (decide (d.d.getD 0 0 ≠ upper.d.getD 0 0) &&
      (inc || decide (d.d.getD 0 0 + 1 < upper.d.getD 0 0) || decide (0 + 1 < upper.nd))) = okup
    have hDt : okdown = true := by
      rw [← hD]
      rw [pre_one] at hm1 hl5
      simp only [Bool.or_eq_true, decide_eq_true_eq]
      left; omega
    have hUf : okup = false → d.d.getD 0 0 = upper.d.getD 0 0 ∨
        inc = false ∧ upper.d.getD 0 0 ≤ d.d.getD 0 0 + 1 ∧ upper.d.length ≤ 0 + 1 := by
      intro h
      rw [h] at hU
      simp only [Bool.or_eq_false_iff, Bool.and_eq_false_iff, decide_eq_false_iff_not, not_not] at hU
      rcases hU with h' | h'
      · exact Or.inl h'
      · have h2 := h'.1.2
        have h3 := h'.2
        change ¬ 0 + 1 < upper.d.length at h3
        exact Or.inr ⟨h'.1.1, by omega, by omega⟩
    obtain ⟨s1, w, s2, s3⟩ := stop_closest (inc := inc) hd ht hlo hhi (Or.inl hDt) (fun h => absurd h (by rw [hDt]; decide))
      (fun h => upper_out hup hudp rfl (hUf h)) (shortestLoop d lower upper inc n (0 + 1)) _ rfl
    exact ⟨0, s1, fun h => absurd h (by norm_num), w, s2, Or.inl ⟨s3, fun _ hf => not_fits_zero (hv.trans hhi) hf⟩⟩

/-- Numbers with few digits are multiples of a unit, or smaller than every number with the digits at `dp`. -/
theorem none_fits {dp : ℤ} {v : ℚ} {j m : ℕ} (hj : 1 ≤ j) (hm : m ≤ j) (hv : (10 : ℚ) ^ (dp - 1) ≤ v) (hself : Between lo hi inc v)
    (hnone : NoneAt dp lo hi inc j) {y : ℚ} (hy : FitsDigits m y) : ¬ Between lo hi inc y := by
  intro hb
  obtain ⟨a, e, ha, rfl⟩ := hy
  by_cases he : dp - j ≤ e
  · refine hnone (a * 10 ^ (e - (dp - j)).toNat) ?_
    have : (((a : ℤ) * 10 ^ (e - (dp - j)).toNat : ℤ) : ℚ) * (10 : ℚ) ^ (dp - j) = a * (10 : ℚ) ^ e := by
      push_cast
      rw [mul_assoc, ← zpow_natCast, ← zpow_add₀ (by norm_num)]
      congr 2
      omega
    rwa [this]
  · have hlt : (a : ℚ) * (10 : ℚ) ^ e ≤ (10 : ℚ) ^ (dp - 1) := by
      have h1 : (a : ℚ) < 10 ^ m := by exact_mod_cast ha
      calc (a : ℚ) * (10 : ℚ) ^ e ≤ 10 ^ m * (10 : ℚ) ^ e := by
            apply mul_le_mul_of_nonneg_right h1.le; positivity
        _ = (10 : ℚ) ^ ((m : ℤ) + e) := by rw [zpow_add₀ (by norm_num), zpow_natCast]
        _ ≤ _ := zpow_le_zpow_right₀ (by norm_num) (by omega)
    have hb' := Between.convex hb hself hlt hv
    refine hnone ((10 : ℤ) ^ (j - 1)) ?_
    have : (((10 : ℤ) ^ (j - 1) : ℤ) : ℚ) * (10 : ℚ) ^ (dp - j) = (10 : ℚ) ^ (dp - 1) := by
      push_cast
      rw [← zpow_natCast, ← zpow_add₀ (by norm_num)]
      congr 1
      omega
    rwa [this]

theorem roundUpDigits_length : ∀ {ds r : List ℕ}, roundUpDigits ds = some r → r.length ≤ ds.length
  | [], _, h => by simp [roundUpDigits] at h
  | c :: cs, r, h => by
    unfold roundUpDigits at h
    split at h
    · rename_i r' h'
      cases h
      have := roundUpDigits_length h'
      simpa using this
    · split_ifs at h
      cases h
      simp

theorem trim_length (a : Decimal) : (trim a).d.length ≤ a.d.length := by
  obtain ⟨k, h1, -⟩ := dtz_spec a.d
  have h2 : (trim a).d = dropTrailingZeros a.d := rfl
  have h3 := congrArg List.length h1
  rw [h2]
  rw [List.length_append] at h3
  omega

/-- Rounding to fewer digits makes the decimal shorter, and otherwise leaves it alone. -/
theorem round_shorter (d : Decimal) {i : ℕ} (hi : 1 ≤ i) :
    (d.roundDown i = d ∨ (d.roundDown i).d.length < d.d.length) ∧ (d.roundUp i = d ∨ (d.roundUp i).d.length < d.d.length) ∧
      (d.round i = d ∨ (d.round i).d.length < d.d.length) := by
  have hnd : (d.nd : ℤ) = d.d.length := rfl
  have h1 : d.roundDown i = d ∨ (d.roundDown i).d.length < d.d.length := by
    unfold Decimal.roundDown
    split_ifs with h
    · exact Or.inl rfl
    · right
      refine lt_of_le_of_lt (trim_length _) ?_
      rw [List.length_take, Int.toNat_natCast]
      omega
  have h2 : d.roundUp i = d ∨ (d.roundUp i).d.length < d.d.length := by
    unfold Decimal.roundUp
    split_ifs with h
    · exact Or.inl rfl
    · right
      have hl : (d.d.take (i : ℤ).toNat).length < d.d.length := by
        rw [List.length_take, Int.toNat_natCast]
        omega
      split
      · rename_i r hr
        exact lt_of_le_of_lt (roundUpDigits_length hr) hl
      · show 1 < d.d.length
        omega
  refine ⟨h1, h2, ?_⟩
  unfold Decimal.round
  split_ifs
  · exact Or.inl rfl
  · exact h2
  · exact h1

theorem shortestLoop_shorter (d lower upper : Decimal) (inc : Bool) : ∀ n i,
    shortestLoop d lower upper inc n i = d ∨ (shortestLoop d lower upper inc n i).d.length < d.d.length
  | 0, _ => Or.inl rfl
  | n + 1, i => by
    obtain ⟨h1, h2, h3⟩ := round_shorter d (i := i + 1) (by omega)
    push_cast at h1 h2 h3
    unfold shortestLoop
    simp only
    split_ifs
    · exact h3
    · exact h1
    · exact h2
    · exact shortestLoop_shorter d lower upper inc n (i + 1)

/-- Shortest; and closest, unless the upper bound is excluded and has fewer digits than everything between the bounds. -/
def ShortestUnless (ds : List ℕ) (dp : ℤ) (v lo hi : ℚ) (inc : Bool) : Prop :=
  (∀ m y, FitsDigits m y → Between lo hi inc y → ds.length ≤ m) ∧
  ((∀ y, FitsDigits ds.length y → Between lo hi inc y → |decValue ds dp - v| ≤ |y - v|) ∨
    inc = false ∧ (∀ m y, FitsDigits m y → Between lo hi inc y → FitsDigits (m - 1) hi) ∧ (FitsDigits ds.length v → decValue ds dp = v))

theorem Outcome.spec {r : Decimal} (hd : NormalDec d.d d.dp) (hne : d.d ≠ []) (hlo0 : 0 < lo) (hself : Between lo hi inc (decValue d.d d.dp))
    (hr : r = d ∨ r.d.length < d.d.length) (h : Outcome d r lo hi inc) : ShortestUnless r.d r.dp (decValue d.d d.dp) lo hi inc := by
  have hv := (decValue_pos hd hne).1
  have zero : ∀ y, FitsDigits 0 y → ¬ Between lo hi inc y := by
    rintro y ⟨a, e, ha, rfl⟩ hb
    have : a = 0 := by simpa using ha
    subst this
    have := hb.1
    simp at this
    linarith
  obtain ⟨i, h1, h2, w, hw, h3⟩ := h
  have hmin : ∀ m y, FitsDigits m y → Between lo hi inc y → i + 1 ≤ m := by
    intro m y hy hb
    by_contra hc
    by_cases hi : 1 ≤ i
    · exact none_fits hi (by omega) hv hself (h2 hi) hy hb
    · have : m = 0 := by omega
      subst this
      exact zero y hy hb
  refine ⟨fun m y hy hb => h1.trans (hmin m y hy hb), ?_⟩
  rcases h3 with ⟨h3, -⟩ | ⟨h3, h4, h5, -⟩
  · · left
      replace h3 := fun z hz => (h3 z hz).le
      rw [← hw] at h3
      intro y hy hb
      obtain ⟨a, e, ha, rfl⟩ := fits_mono h1 hy
      by_cases he : d.dp - ((i + 1 : ℕ) : ℤ) ≤ e
      · have : (((a : ℤ) * 10 ^ (e - (d.dp - ((i + 1 : ℕ) : ℤ))).toNat : ℤ) : ℚ) * (10 : ℚ) ^ (d.dp - ((i + 1 : ℕ) : ℤ)) = a * (10 : ℚ) ^ e := by
          push_cast
          rw [mul_assoc, ← zpow_natCast, ← zpow_add₀ (by norm_num)]
          congr 2
          omega
        have h4 := h3 (a * 10 ^ (e - (d.dp - ((i + 1 : ℕ) : ℤ))).toNat) (by rw [this]; exact hb)
        rwa [this] at h4
      · have hlt : (a : ℚ) * (10 : ℚ) ^ e ≤ (10 : ℚ) ^ (d.dp - 1) := by
          have h1 : (a : ℚ) < 10 ^ (i + 1) := by exact_mod_cast ha
          calc (a : ℚ) * (10 : ℚ) ^ e ≤ 10 ^ (i + 1) * (10 : ℚ) ^ e := by
                apply mul_le_mul_of_nonneg_right h1.le; positivity
            _ = (10 : ℚ) ^ (((i + 1 : ℕ) : ℤ) + e) := by rw [zpow_add₀ (by norm_num), zpow_natCast]
            _ ≤ _ := zpow_le_zpow_right₀ (by norm_num) (by omega)
        have hb' := Between.convex hb hself hlt hv
        have hpow : (((10 : ℤ) ^ i : ℤ) : ℚ) * (10 : ℚ) ^ (d.dp - ((i + 1 : ℕ) : ℤ)) = (10 : ℚ) ^ (d.dp - 1) := by
          push_cast
          rw [← zpow_natCast, ← zpow_add₀ (by norm_num)]
          congr 1
          omega
        have h4 := h3 ((10 : ℤ) ^ i) (by rw [hpow]; exact hb')
        rw [hpow] at h4
        refine h4.trans ?_
        rw [abs_of_nonpos (by linarith), abs_of_nonpos (by linarith)]
        linarith
  · refine Or.inr ⟨h3, fun m y hy hb => fits_mono (by have := hmin m y hy hb; omega) h5, fun hf => ?_⟩
    rcases hr with rfl | hr
    · rfl
    · have := normal_least hd hne hf
      omega

/-- Exactly which decimal is chosen. `L` is the least number of digits of anything within the bounds and `e` the place of the last of
the first `L` digits of `v`. If the bounds are excluded and the upper one has fewer than `L` digits, `v` is cut at this place.
Otherwise the closest of the multiples of `10^e` within the bounds is chosen, the even one if two are. -/
def Picks (ds : List ℕ) (dp : ℤ) (v lo hi : ℚ) (inc : Bool) : Prop :=
  ∃ (L : ℕ) (e w : ℤ), 1 ≤ L ∧ ds.length ≤ L ∧ (10 : ℚ) ^ (e + L - 1) ≤ v ∧ v < (10 : ℚ) ^ (e + L) ∧
    (∀ m y, FitsDigits m y → Between lo hi inc y → L ≤ m) ∧ decValue ds dp = w * (10 : ℚ) ^ e ∧
    (inc = false ∧ FitsDigits (L - 1) hi → w * (10 : ℚ) ^ e ≤ v ∧ v < (w + 1) * (10 : ℚ) ^ e) ∧
    (¬ (inc = false ∧ FitsDigits (L - 1) hi) → ∀ z : ℤ, Between lo hi inc (z * (10 : ℚ) ^ e) → Prefer ((10 : ℚ) ^ e) v w z)

theorem Outcome.picks {r : Decimal} (hd : NormalDec d.d d.dp) (hne : d.d ≠ []) (hlo0 : 0 < lo) (hself : Between lo hi inc (decValue d.d d.dp))
    (h : Outcome d r lo hi inc) : Picks r.d r.dp (decValue d.d d.dp) lo hi inc := by
  obtain ⟨hv, hv2⟩ := decValue_pos hd hne
  obtain ⟨i, h1, h2, w, hw, h3⟩ := h
  refine ⟨i + 1, d.dp - (i + 1 : ℕ), w, by omega, h1, ?_, ?_, fun m y hy hb => ?_, hw, ?_⟩
  · rwa [sub_add_cancel]
  · rwa [sub_add_cancel]
  · by_contra hc
    by_cases hi : 1 ≤ i
    · exact none_fits hi (by omega) hv hself (h2 hi) hy hb
    · have : m = 0 := by omega
      subst this
      exact not_fits_zero (lt_of_lt_of_le hlo0 hb.1) hy
  · rw [Nat.add_sub_cancel]
    rcases h3 with ⟨h3, h4⟩ | ⟨h3, h4, h5, h6, h7⟩
    · exact ⟨fun hc => absurd hc.2 (h4 hc.1), fun _ => h3⟩
    · exact ⟨fun _ => ⟨h6, h7⟩, fun hc => absurd ⟨h3, h5⟩ hc⟩

variable {F : Format} {n k N : ℕ}

/-- What `roundShortest` does: an integer with few digits is left alone, everything else goes through the loop. -/
theorem roundShortest_shape {W : ℕ} (hW : W = 32 ∨ W = 64) (hF : GoFormat F) (h : Split F n k N) (hN0 : N ≠ 0) {d : Decimal} :
    (roundShortest W d (BitVec.ofNat 64 N) ((k : ℤ) + 1 - F.bias) (infoOf F) = .ok d ∧ k ≠ 0 ∧
      100 * (F.qmin + k) ≤ 332 * (d.dp - d.d.length)) ∨
    ∃ l u : Decimal, roundShortest W d (BitVec.ofNat 64 N) ((k : ℤ) + 1 - F.bias) (infoOf F) =
        .ok (shortestLoop d l u (decide (n % 2 = 0)) d.nd 0) ∧ NormalDec l.d l.dp ∧ NormalDec u.d u.dp ∧
      2 * decValue l.d l.dp = F.magc (n - 1) + F.magc n ∧ 2 * decValue u.d u.dp = F.magc n + F.magc (n + 1) := by
  have hb := hF.bounds
  have hN53 := h.N_lt hF
  have hr := h.exp_range hF
  have hN0' : 0 < N := Nat.pos_of_ne_zero hN0
  have hNw : (BitVec.ofNat 64 N).toNat = N := ofNat_toNat (by omega)
  have hq : (k : ℤ) + 1 - F.bias - F.t = F.qmin + k := by unfold Format.qmin; ring
  unfold roundShortest
  have hne0 : ¬ (BitVec.ofNat 64 N = 0) := by
    intro hc
    have := congrArg BitVec.toNat hc
    rw [hNw] at this
    exact hN0 this
  rw [if_neg hne0]
  simp only [bind, Except.bind, pure, Except.pure]
  have hinf : (infoOf F).mantbits = F.t := rfl
  have hbias : (infoOf F).bias = -F.bias := rfl
  have hnd : d.nd = d.d.length := rfl
  split
  · rename_i hc
    rw [hinf, hbias, hnd] at hc
    refine Or.inl ⟨rfl, by omega, ?_⟩
    rw [← hq]
    exact hc.2
  · right
    have hup : (BitVec.ofNat 64 N * 2 + 1).toNat = 2 * N + 1 := by
      rw [BitVec.toNat_add, BitVec.toNat_mul, hNw]
      show (N * 2 % 2 ^ 64 + 1) % 2 ^ 64 = _
      omega
    obtain ⟨u, u1, u2, u3, u4, u5⟩ := new_shift hW (BitVec.ofNat 64 N * 2 + 1) ((k : ℤ) + 1 - F.bias - F.t - 1) (by omega) (by omega)
    rw [hup, hq] at u4
    rw [hinf, hbias, u1]
    simp only
    set c : Prop := BitVec.ofNat 64 N > 1 <<< F.t ∨ (k : ℤ) + 1 - F.bias = -F.bias + 1 with hc
    have hsh := one_shift (t := F.t) (by omega)
    have hciff : c ↔ 2 ^ F.t < N ∨ k = 0 := by
      rw [hc, gt_iff_lt, BitVec.lt_def, hsh, hNw]
      constructor
      · rintro (h | h)
        · exact Or.inl h
        · exact Or.inr (by omega)
      · rintro (h | h)
        · exact Or.inl h
        · exact Or.inr (by omega)
    have hmid := h.lower_mid hN0'
    have hlow : ∃ l, (Decimal.new.assign ((if c then (BitVec.ofNat 64 N - 1, (k : ℤ) + 1 - F.bias) else
          (BitVec.ofNat 64 N * 2 - 1, (k : ℤ) + 1 - F.bias - 1)).1 * 2 + 1)).shift W
          ((if c then (BitVec.ofNat 64 N - 1, (k : ℤ) + 1 - F.bias) else
          (BitVec.ofNat 64 N * 2 - 1, (k : ℤ) + 1 - F.bias - 1)).2 - F.t - 1) = .ok l ∧
        NormalDec l.d l.dp ∧ 2 * decValue l.d l.dp = F.magc (n - 1) + F.magc n := by
      by_cases hcc : c
      · simp only [if_pos hcc]
        rw [if_pos (hciff.1 hcc)] at hmid
        have e : ((BitVec.ofNat 64 N - 1) * 2 + 1).toNat = 2 * N - 1 := by
          rw [BitVec.toNat_add, BitVec.toNat_mul, BitVec.toNat_sub, hNw]
          show ((2 ^ 64 - 1 + N) % 2 ^ 64 * 2 % 2 ^ 64 + 1) % 2 ^ 64 = _
          omega
        obtain ⟨l, l1, l2, l3, l4, l5⟩ := new_shift hW ((BitVec.ofNat 64 N - 1) * 2 + 1) ((k : ℤ) + 1 - F.bias - F.t - 1) (by omega) (by omega)
        refine ⟨l, l1, l2, ?_⟩
        rw [l4, e, hmid, hq]
        push_cast [Nat.cast_sub (show 1 ≤ 2 * N by omega)]
        ring
      · simp only [if_neg hcc]
        rw [if_neg (fun hx => hcc (hciff.2 hx))] at hmid
        have e : ((BitVec.ofNat 64 N * 2 - 1) * 2 + 1).toNat = 4 * N - 1 := by
          rw [BitVec.toNat_add, BitVec.toNat_mul, BitVec.toNat_sub, BitVec.toNat_mul, hNw]
          show ((2 ^ 64 - 1 + N * 2 % 2 ^ 64) % 2 ^ 64 * 2 % 2 ^ 64 + 1) % 2 ^ 64 = _
          omega
        obtain ⟨l, l1, l2, l3, l4, l5⟩ := new_shift hW ((BitVec.ofNat 64 N * 2 - 1) * 2 + 1) ((k : ℤ) + 1 - F.bias - 1 - F.t - 1)
          (by omega) (by omega)
        refine ⟨l, l1, l2, ?_⟩
        rw [l4, e, hmid, show (k : ℤ) + 1 - F.bias - 1 - F.t - 1 = F.qmin + k - 2 by rw [← hq]; ring]
        push_cast [Nat.cast_sub (show 1 ≤ 4 * N by omega)]
        ring
    obtain ⟨l, l1, l2, l3⟩ := hlow
    rw [l1]
    simp only
    have hpar := h.even hF
    have hinc : decide (BitVec.ofNat 64 N % 2 = 0) = decide (n % 2 = 0) := by
      apply decide_eq_decide.2
      rw [← BitVec.toNat_inj, BitVec.toNat_umod, hNw]
      show N % 2 = 0 ↔ _
      rw [hpar]
    rw [hinc]
    exact ⟨l, u, rfl, l2, u2, l3, by rw [u4, h.upper_mid]; push_cast; ring⟩

theorem between_iff {y lo hi : ℚ} (hn0 : n ≠ 0) (hl : 2 * lo = F.magc (n - 1) + F.magc n) (hu : 2 * hi = F.magc n + F.magc (n + 1)) :
    Between lo hi (decide (n % 2 = 0)) y ↔ InInterval F n y := by
  unfold Between InInterval
  rw [← hl, ← hu]
  simp only [decide_eq_false_iff_not]
  constructor
  · rintro ⟨h1, h2, h3⟩
    exact ⟨fun _ => ⟨by linarith, fun h => by linarith [(h3 (by omega)).1]⟩, by linarith, fun h => by linarith [(h3 (by omega)).2]⟩
  · rintro ⟨h1, h2, h3⟩
    obtain ⟨h4, h5⟩ := h1 hn0
    exact ⟨by linarith, by linarith, fun h => ⟨by linarith [h5 (by omega)], by linarith [h3 (by omega)]⟩⟩

/-- A midpoint that is a power of ten belongs to a large number. -/
theorem mid_power {N : ℕ} {q j : ℤ} (h : (2 * (N : ℚ) + 1) * (2 : ℚ) ^ (q - 1) = (10 : ℚ) ^ j) (hN : N ≠ 0) : 1 ≤ q := by
  by_contra hc
  obtain ⟨a, ha⟩ : ∃ a : ℕ, q - 1 = -(a : ℤ) - 1 := ⟨(-q).toNat, by omega⟩
  rw [ha] at h
  have h2 : (2 : ℚ) ^ (-(a : ℤ) - 1) = ((2 : ℚ) ^ (a + 1))⁻¹ := by
    rw [show -(a : ℤ) - 1 = -((a + 1 : ℕ) : ℤ) by push_cast; ring, zpow_neg, zpow_natCast]
  rw [h2] at h
  rcases le_total 0 j with hj | hj
  · obtain ⟨b, rfl⟩ := Int.eq_ofNat_of_zero_le hj
    rw [zpow_natCast] at h
    have h3 : (2 * (N : ℚ) + 1) = 10 ^ b * 2 ^ (a + 1) := by field_simp at h; linarith
    have h4 : 2 * N + 1 = 10 ^ b * 2 ^ (a + 1) := by exact_mod_cast h3
    rw [pow_succ, ← mul_assoc] at h4
    omega
  · obtain ⟨b, hb⟩ := Int.eq_ofNat_of_zero_le (neg_nonneg.2 hj)
    have hj' : j = -(b : ℤ) := by omega
    rw [hj', zpow_neg, zpow_natCast] at h
    have h3 : (2 * (N : ℚ) + 1) * 10 ^ b = 2 ^ (a + 1) := by field_simp at h; linarith
    have h4 : (2 * N + 1) * 10 ^ b = 2 ^ (a + 1) := by exact_mod_cast h3
    have h5 : (2 * N + 1) ∣ 2 ^ (a + 1) := ⟨_, h4.symm⟩
    obtain ⟨c, -, h6⟩ := (Nat.dvd_prime_pow Nat.prime_two).1 h5
    cases c with
    | zero => rw [pow_zero] at h6; omega
    | succ c => rw [pow_succ] at h6; omega

set_option exponentiation.threshold 2000 in
/-- The test for integers with few digits: the last digit weighs more than half a unit of the mantissa. -/
theorem early_unit {D N : ℕ} {K q : ℤ} (hv : (D : ℚ) * (10 : ℚ) ^ K = N * (2 : ℚ) ^ q) (hD : ¬ 10 ∣ D) (hN : N < 2 ^ 53)
    (hc : 100 * q ≤ 332 * K) : (2 : ℚ) ^ (q - 1) < (10 : ℚ) ^ K := by
  by_contra hlt
  rw [not_lt] at hlt
  have hpow : ((10 : ℚ) ^ K) ^ 100 ≤ ((2 : ℚ) ^ (q - 1)) ^ 100 := pow_le_pow_left₀ (by positivity) hlt 100
  rw [← zpow_natCast, ← zpow_mul, ← zpow_natCast, ← zpow_mul] at hpow
  have hpow2 : (2 : ℚ) ^ ((q - 1) * ((100 : ℕ) : ℤ)) ≤ (2 : ℚ) ^ (332 * K - 100) := zpow_le_zpow_right₀ (by norm_num) (by push_cast; omega)
  rcases le_total 0 K with hK | hK
  · obtain ⟨b, rfl⟩ := Int.eq_ofNat_of_zero_le hK
    have h1 : (2 : ℚ) ^ (332 * (b : ℤ)) ≤ (10 : ℚ) ^ ((b : ℤ) * ((100 : ℕ) : ℤ)) := by
      rw [zpow_mul, show (b : ℤ) * ((100 : ℕ) : ℤ) = ((100 : ℕ) : ℤ) * b by ring, zpow_mul]
      rw [zpow_natCast, zpow_natCast]
      exact pow_le_pow_left₀ (by positivity) (by norm_num) b
    have h2 : (2 : ℚ) ^ (332 * (b : ℤ) - 100) < (2 : ℚ) ^ (332 * (b : ℤ)) := zpow_lt_zpow_right₀ (by norm_num) (by omega)
    linarith
  · obtain ⟨j, hj⟩ := Int.eq_ofNat_of_zero_le (neg_nonneg.2 hK)
    have hK' : K = -(j : ℤ) := by omega
    obtain ⟨a, ha⟩ : ∃ a : ℕ, q = -(a : ℤ) := ⟨(-q).toNat, by omega⟩
    rw [hK', ha, zpow_neg, zpow_neg, zpow_natCast, zpow_natCast] at hv
    have h3 : (D : ℚ) * 2 ^ a = N * 10 ^ j := by field_simp at hv; linarith
    have h4 : D * 2 ^ a = N * 10 ^ j := by exact_mod_cast h3
    have h5 : 5 ^ j ∣ D := by
      apply Nat.Coprime.dvd_of_dvd_mul_right (n := 2 ^ a) (Nat.Coprime.pow _ _ (by decide))
      rw [h4]
      exact Dvd.dvd.mul_left (pow_dvd_pow_of_dvd (by norm_num) j) N
    have hD0 : 0 < D := Nat.pos_of_ne_zero fun hc => hD (by rw [hc]; exact dvd_zero _)
    have h6 := Nat.le_of_dvd hD0 h5
    have h7 : 5 ^ j * 2 ^ a < 2 ^ 53 * 10 ^ j := by
      calc 5 ^ j * 2 ^ a ≤ D * 2 ^ a := Nat.mul_le_mul_right _ h6
        _ = N * 10 ^ j := h4
        _ < _ := Nat.mul_lt_mul_of_pos_right hN (by positivity)
    have h8 : 2 ^ a < 2 ^ (53 + j) := by
      rw [show (10 : ℕ) = 5 * 2 by norm_num, mul_pow] at h7
      rw [pow_add]
      have : 5 ^ j * 2 ^ a < 5 ^ j * (2 ^ 53 * 2 ^ j) := by
        calc _ < _ := h7
          _ = _ := by ring
      exact Nat.lt_of_mul_lt_mul_left this
    have h9 := (Nat.pow_lt_pow_iff_right (by norm_num)).1 h8
    have hj22 : j ≤ 22 := by omega
    have h1 : (2 : ℚ) ^ (-(333 * (j : ℤ))) ≤ (10 : ℚ) ^ (K * ((100 : ℕ) : ℤ)) := by
      rw [hK', show -(j : ℤ) * ((100 : ℕ) : ℤ) = -(((100 : ℕ) : ℤ) * j) by ring, zpow_neg, zpow_neg]
      apply inv_anti₀ (by positivity)
      rw [zpow_mul, zpow_mul, zpow_natCast, zpow_natCast]
      exact pow_le_pow_left₀ (by positivity) (by norm_num) j
    have h2 : (2 : ℚ) ^ (332 * K - 100) < (2 : ℚ) ^ (-(333 * (j : ℤ))) := zpow_lt_zpow_right₀ (by norm_num) (by omega)
    linarith

theorem not_ten_dvd {ds : List ℕ} (hd : ∀ x ∈ ds, x < 10) (hlast : ds.getLast? ≠ some 0) (hne : ds ≠ []) : ¬ 10 ∣ dv ds := by
  obtain ⟨init, c, rfl⟩ := List.eq_nil_or_concat ds |>.resolve_left hne
  rw [List.concat_eq_append] at *
  rw [dv_snoc]
  have h1 : c < 10 := hd c (by simp)
  have h2 : c ≠ 0 := by
    rintro rfl
    simp at hlast
  omega

/-- The exact path delivers a shortest decimal; and it is the closest of them, unless the mantissa is odd and the midpoint to the
next float has fewer digits than every decimal in the interval. -/
theorem roundShortest_min {W : ℕ} (hW : W = 32 ∨ W = 64) (hF : GoFormat F) (h : Split F n k N) (hN0 : N ≠ 0) {d : Decimal}
    (hd : NormalDec d.d d.dp) (ht : d.trunc = false) (hdv : decValue d.d d.dp = F.magc n) :
    ∃ b, roundShortest W d (BitVec.ofNat 64 N) ((k : ℤ) + 1 - F.bias) (infoOf F) = .ok b ∧
      ShortestUnless b.d b.dp (F.magc n) ((F.magc (n - 1) + F.magc n) / 2) ((F.magc n + F.magc (n + 1)) / 2) (decide (n % 2 = 0)) ∧
      Picks b.d b.dp (F.magc n) ((F.magc (n - 1) + F.magc n) / 2) ((F.magc n + F.magc (n + 1)) / 2) (decide (n % 2 = 0)) := by
  have hb := hF.bounds
  have hN53 := h.N_lt hF
  have hN0' : 0 < N := Nat.pos_of_ne_zero hN0
  have hN1 : (1 : ℚ) ≤ N := by exact_mod_cast hN0'
  have hn0 : n ≠ 0 := fun hc => hN0 (h.zero_iff.2 hc)
  have hQ : (0 : ℚ) < (2 : ℚ) ^ (F.qmin + (k : ℤ)) := by positivity
  have hpos : (0 : ℚ) < F.magc n := by
    rw [h.value]
    positivity
  have hdne : d.d ≠ [] := ne_nil_of_pos (dp := d.dp) (by rw [hdv]; exact hpos)
  have hmono := F.magc_strictMono
  have hlt : F.magc (n - 1) < F.magc n := hmono (by omega)
  have hgt : F.magc n < F.magc (n + 1) := hmono (by omega)
  have hpred0 := F.magc_nonneg (n - 1)
  rcases roundShortest_shape hW hF h hN0 (d := d) with ⟨h1, hk, h2⟩ | ⟨l, u, h1, l2, u2, l3, u3⟩
  · refine ⟨d, h1, ?_⟩
    have hval := h.value
    have hunit := early_unit (D := dv d.d) (K := d.dp - d.d.length) (by rw [← decValue_eq, hdv, hval]) (not_ten_dvd hd.digit hd.last hdne) hN53 h2
    have hv1 := (decValue_pos hd hdne).1
    have hlen : 1 ≤ d.d.length := List.length_pos_iff.2 hdne
    have hQ2 := two_zpow_pred (F.qmin + k)
    have hself : Between ((F.magc (n - 1) + F.magc n) / 2) ((F.magc n + F.magc (n + 1)) / 2) (decide (n % 2 = 0)) (decValue d.d d.dp) := by
      rw [hdv]
      exact between_self (by linarith) (by linarith)
    have hnear : ∀ y, Between ((F.magc (n - 1) + F.magc n) / 2) ((F.magc n + F.magc (n + 1)) / 2) (decide (n % 2 = 0)) y →
        |y - F.magc n| ≤ (2 : ℚ) ^ (F.qmin + (k : ℤ) - 1) := by
      rintro y ⟨b1, b2, -⟩
      have e1 := h.succ
      have e2 := h.lower_mid hN0'
      rw [e1, hval] at b2
      rw [hval, abs_le]
      constructor
      · split at e2
        · rw [e2] at b1
          nlinarith
        · rw [e2] at b1
          rw [two_zpow_pred (F.qmin + k - 1), show F.qmin + (k : ℤ) - 1 - 1 = F.qmin + k - 2 by ring] at hQ2 ⊢
          nlinarith
      · nlinarith
    have hnone : NoneAt d.dp ((F.magc (n - 1) + F.magc n) / 2) ((F.magc n + F.magc (n + 1)) / 2) (decide (n % 2 = 0)) (d.d.length - 1) := by
      intro z hz
      have e1 := hnear _ hz
      rw [← hdv, decValue_eq] at e1
      have e2 : (10 : ℚ) ^ (d.dp - ((d.d.length - 1 : ℕ) : ℤ)) = 10 * (10 : ℚ) ^ (d.dp - d.d.length) := by
        rw [← zpow_one_add₀ ten_ne]
        congr 1
        omega
      rw [e2] at e1
      have hU : (0 : ℚ) < (10 : ℚ) ^ (d.dp - (d.d.length : ℤ)) := by positivity
      have e3 : (z : ℚ) * (10 * (10 : ℚ) ^ (d.dp - (d.d.length : ℤ))) - dv d.d * (10 : ℚ) ^ (d.dp - (d.d.length : ℤ)) =
          ((z * 10 - dv d.d : ℤ) : ℚ) * (10 : ℚ) ^ (d.dp - (d.d.length : ℤ)) := by push_cast; ring
      rw [e3, abs_mul, abs_of_pos hU] at e1
      have hne : z * 10 - (dv d.d : ℤ) ≠ 0 := by
        intro hc
        apply not_ten_dvd hd.digit hd.last hdne
        omega
      have e4 : (1 : ℚ) ≤ |((z * 10 - dv d.d : ℤ) : ℚ)| := by exact_mod_cast Int.one_le_abs hne
      nlinarith
    have hmin : ∀ m y, FitsDigits m y → Between ((F.magc (n - 1) + F.magc n) / 2) ((F.magc n + F.magc (n + 1)) / 2) (decide (n % 2 = 0)) y →
        d.d.length ≤ m := by
      intro m y hy hb
      by_contra hc
      by_cases hl1 : 1 ≤ d.d.length - 1
      · exact none_fits hl1 (by omega) hv1 hself hnone hy hb
      · have hm0 : m = 0 := by omega
        subst hm0
        exact not_fits_zero (lt_of_lt_of_le (by linarith) hb.1) hy
    refine ⟨⟨hmin, ?_⟩, d.d.length, d.dp - d.d.length, dv d.d, hlen, le_rfl, ?_, ?_, hmin, by rw [decValue_eq]; push_cast; rfl, ?_⟩
    · left
      intro y _ _
      rw [hdv, sub_self, abs_zero]
      exact abs_nonneg _
    · rw [sub_add_cancel, ← hdv]
      exact hv1
    · rw [sub_add_cancel, ← hdv]
      exact (decValue_pos hd hdne).2
    · have hU : (0 : ℚ) < (10 : ℚ) ^ (d.dp - (d.d.length : ℤ)) := by positivity
      constructor
      · intro _
        rw [← hdv, decValue_eq, Int.cast_natCast]
        exact ⟨le_rfl, by linarith⟩
      · intro _ z _
        unfold Prefer
        by_cases hz : z = dv d.d
        · exact Or.inl hz
        · right; left
          rw [← hdv, decValue_eq, Int.cast_natCast, sub_self, abs_zero, abs_pos, sub_ne_zero]
          intro hc
          have := mul_right_cancel₀ hU.ne' hc
          exact hz (by exact_mod_cast this)
  · refine ⟨_, h1, ?_⟩
    have el : (F.magc (n - 1) + F.magc n) / 2 = decValue l.d l.dp := by linarith
    have eu : (F.magc n + F.magc (n + 1)) / 2 = decValue u.d u.dp := by linarith
    rw [el, eu, ← hdv]
    have hlo : decValue l.d l.dp < decValue d.d d.dp := by rw [hdv]; linarith
    have hhi : decValue d.d d.dp < decValue u.d u.dp := by rw [hdv]; linarith
    suffices ho : Outcome d (shortestLoop d l u (decide (n % 2 = 0)) d.nd 0) (decValue l.d l.dp) (decValue u.d u.dp) (decide (n % 2 = 0)) from
      ⟨Outcome.spec hd hdne (by linarith) (between_self hlo hhi) (shortestLoop_shorter _ _ _ _ _ _) ho,
        Outcome.picks hd hdne (by linarith) (between_self hlo hhi) ho⟩
    apply shortest_min hd ht hdne l2 u2 hlo hhi (by rw [hdv]; linarith)
    · rw [hdv, u3, h.succ, h.value]
      nlinarith
    · intro _ hten
      rw [show decValue u.d u.dp = (2 * (N : ℚ) + 1) * (2 : ℚ) ^ (F.qmin + (k : ℤ) - 1) by linarith [h.upper_mid]] at hten
      have hq1 := mid_power hten hN0
      have hk0 : k ≠ 0 := by
        rintro rfl
        rcases hF with rfl | rfl | rfl <;> revert hq1 <;> decide
      have hNt := h.norm.resolve_left hk0
      have : 2 ^ 10 ≤ 2 ^ F.t := Nat.pow_le_pow_right (by norm_num) hb.1
      have hNq : (1024 : ℚ) ≤ N := by exact_mod_cast (show 1024 ≤ N by omega)
      have : 2 * decValue u.d u.dp = (2 * N + 1) * (2 : ℚ) ^ (F.qmin + (k : ℤ)) := by
        rw [u3, h.succ, h.value]; ring
      rw [hdv, h.value]
      nlinarith
    · intro hinc
      have hodd : n % 2 = 1 := by
        rw [decide_eq_false_iff_not] at hinc
        omega
      have hpar := h.even hF
      have hN2 : 2 ^ F.t < N ∨ k = 0 := by
        rcases h.norm with h' | h'
        · exact Or.inr h'
        · left
          obtain ⟨s, hs⟩ : ∃ s, F.t = s + 1 := ⟨F.t - 1, by omega⟩
          rw [hs, pow_succ] at h' ⊢
          omega
      have e1 := h.succ
      have e2 := h.pred hN0' hN2.symm
      have e3 := h.value
      rw [e1, e3] at u3
      rw [e2, e3] at l3
      rw [hdv, e3]
      linarith

/-- The digits are shortest for the float with code `n`; and they are the closest, unless it is odd and the midpoint to the next one has
fewer digits than every decimal in the interval. -/
def FloatUnless (F : Format) (n : ℕ) (ds : List ℕ) (dp : ℤ) : Prop :=
  ShortestUnless ds dp (F.magc n) ((F.magc (n - 1) + F.magc n) / 2) ((F.magc n + F.magc (n + 1)) / 2) (decide (n % 2 = 0))

/-- Exactly which digits the exact path chooses for the float with code `n`. -/
def FloatPicks (F : Format) (n : ℕ) (ds : List ℕ) (dp : ℤ) : Prop :=
  Picks ds dp (F.magc n) ((F.magc (n - 1) + F.magc n) / 2) ((F.magc n + F.magc (n + 1)) / 2) (decide (n % 2 = 0))

/-- Below `2^(t+1)` the midpoint to the next float has more digits than the float. -/
theorem mid_longer {N : ℕ} {q : ℤ} (hq : q ≤ 0) (hN : N ≠ 0) {m : ℕ}
    (h : FitsDigits m ((2 * (N : ℚ) + 1) * (2 : ℚ) ^ (q - 1))) : 1 ≤ m ∧ FitsDigits (m - 1) (N * (2 : ℚ) ^ q) := by
  obtain ⟨a, ha⟩ : ∃ a : ℕ, q = -(a : ℤ) := ⟨(-q).toNat, by omega⟩
  obtain ⟨M, e, hM, he⟩ := h
  have h2 : (2 : ℚ) ^ (q - 1) = (5 ^ (a + 1) : ℕ) * (10 : ℚ) ^ (-((a + 1 : ℕ) : ℤ)) := by
    rw [ha, show -(a : ℤ) - 1 = -((a + 1 : ℕ) : ℤ) by push_cast; ring, zpow_neg, zpow_neg, zpow_natCast, zpow_natCast]
    push_cast
    rw [show (10 : ℚ) = 5 * 2 by norm_num, mul_pow]
    field_simp
  have h3 : (2 : ℚ) ^ q = (5 ^ a : ℕ) * (10 : ℚ) ^ (-(a : ℤ)) := by
    rw [ha, zpow_neg, zpow_neg, zpow_natCast, zpow_natCast]
    push_cast
    rw [show (10 : ℚ) = 5 * 2 by norm_num, mul_pow]
    field_simp
  set B : ℕ := (2 * N + 1) * 5 ^ (a + 1) with hB
  have hBodd : B % 2 = 1 := by
    rw [hB, Nat.mul_mod, Nat.pow_mod]
    simp [Nat.add_mod]
  have hBe : (B : ℚ) * (10 : ℚ) ^ (-((a + 1 : ℕ) : ℤ)) = M * (10 : ℚ) ^ e := by
    rw [← he, h2, hB]
    push_cast
    ring
  have hle : e ≤ -((a + 1 : ℕ) : ℤ) := by
    by_contra hc
    obtain ⟨b, hb⟩ : ∃ b : ℕ, e = -((a + 1 : ℕ) : ℤ) + (b + 1 : ℕ) := ⟨(e + (a + 1 : ℕ) - 1).toNat, by push_cast at hc ⊢; omega⟩
    rw [hb, zpow_add₀ (by norm_num), zpow_natCast, mul_comm ((10 : ℚ) ^ (-((a + 1 : ℕ) : ℤ))), ← mul_assoc] at hBe
    have h4 := mul_right_cancel₀ (show ((10 : ℚ) ^ (-((a + 1 : ℕ) : ℤ))) ≠ 0 by positivity) hBe
    have h5 : B = M * 10 ^ (b + 1) := by exact_mod_cast h4
    rw [pow_succ, ← mul_assoc] at h5
    omega
  obtain ⟨b, hb⟩ : ∃ b : ℕ, -((a + 1 : ℕ) : ℤ) = e + (b : ℕ) := ⟨(-((a + 1 : ℕ) : ℤ) - e).toNat, by omega⟩
  rw [hb, zpow_add₀ (by norm_num), zpow_natCast, mul_comm ((10 : ℚ) ^ e), ← mul_assoc] at hBe
  have h4 := mul_right_cancel₀ (show ((10 : ℚ) ^ e) ≠ 0 by positivity) hBe
  have h5 : B * 10 ^ b = M := by exact_mod_cast h4
  have hBM : B ≤ M := by
    rw [← h5]
    exact Nat.le_mul_of_pos_right _ (by positivity)
  have hNB : 10 * (N * 5 ^ a) < B := by
    rw [hB, pow_succ]
    have : 0 < 5 ^ a := by positivity
    nlinarith
  have hm1 : 1 ≤ m := by
    by_contra hc
    have : m = 0 := by omega
    rw [this] at hM
    simp at hM
    omega
  refine ⟨hm1, N * 5 ^ a, -(a : ℤ), ?_, by rw [h3]; push_cast; ring⟩
  obtain ⟨m', rfl⟩ : ∃ m', m = m' + 1 := ⟨m - 1, by omega⟩
  rw [pow_succ] at hM
  show N * 5 ^ a < 10 ^ m'
  omega

theorem FloatUnless.small {ds : List ℕ} {dp : ℤ} (h : Split F n k N) (hN0 : N ≠ 0) (hq : F.qmin + k ≤ 0) (hu : FloatUnless F n ds dp) {y : ℚ}
    (hy : FitsDigits ds.length y) (hin : InInterval F n y) : |decValue ds dp - F.magc n| ≤ |y - F.magc n| := by
  have hn0 : n ≠ 0 := fun hc => hN0 (h.zero_iff.2 hc)
  have hbi : ∀ y, Between ((F.magc (n - 1) + F.magc n) / 2) ((F.magc n + F.magc (n + 1)) / 2) (decide (n % 2 = 0)) y ↔ InInterval F n y :=
    fun y => between_iff hn0 (by ring) (by ring)
  rcases hu.2 with h1 | ⟨-, h1, -⟩
  · exact h1 y hy ((hbi y).2 hin)
  · exfalso
    have key : ∀ m, ¬ FitsDigits m (F.magc n) := by
      intro m
      induction m using Nat.strong_induction_on with
      | _ m ih =>
        intro hm
        have h2 := h1 m _ hm ((hbi _).2 (inInterval_self n))
        rw [h.upper_mid, mul_div_cancel_left₀ _ (by norm_num)] at h2
        obtain ⟨h3, h4⟩ := mid_longer hq hN0 h2
        rw [← h.value] at h4
        exact ih (m - 1 - 1) (by omega) h4
    obtain ⟨m, hm⟩ : ∃ m, FitsDigits m (F.magc n) := by
      obtain ⟨a, ha⟩ : ∃ a : ℕ, F.qmin + k = -(a : ℤ) := ⟨(-(F.qmin + k)).toNat, by omega⟩
      refine ⟨N * 5 ^ a, N * 5 ^ a, -(a : ℤ), Nat.lt_pow_self (by norm_num), ?_⟩
      rw [h.value, ha, zpow_neg, zpow_neg, zpow_natCast, zpow_natCast]
      push_cast
      rw [show (10 : ℚ) = 5 * 2 by norm_num, mul_pow]
      field_simp
    exact key m hm

end GoFloat.Strconv
